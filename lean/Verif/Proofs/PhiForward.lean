import Verif.Proofs.RunPos
import Verif.Proofs.RleBwt
import Verif.Proofs.RIndex
/-! # Theory of forward phi: run tails are the marks, the heads that follow them the samples -/
namespace Sri
set_option autoImplicit false
variable {T sa : List Nat}

/-- marks: text positions of the BWT characters at run tails -/
def TailMark (T sa : List Nat) (p : Nat) : Prop := ∃ t, TailAt T sa t ∧ pv T sa t = p

theorem mem_tailPos {p : Nat} : p ∈ tailPos T sa ↔ TailMark T sa p := by
  constructor
  · intro h
    obtain ⟨k, hk, rfl⟩ := List.mem_map.1 h
    exact ⟨_, tailAt_tl (List.mem_range.1 hk), rfl⟩
  · rintro ⟨t, ht, rfl⟩
    obtain ⟨k, hk, rfl⟩ := tailAt_iff.1 ht
    exact List.mem_map.2 ⟨k, List.mem_range.2 hk, rfl⟩

theorem pv_psi (hsa : IsSA T sa) {i : Nat} (h : i < T.length) : pv T sa (psiAt T sa i) = saAt sa i := by
  rw [pv_eq hsa (psiAt_lt hsa h), lf_psi hsa h]

/-- inside a run LF advances by one -/
theorem lf_run (hT : IsText T) (hsa : IsSA T sa) {k i : Nat} (hk : k < nrun T sa) (h1 : hd T sa k ≤ i) (h2 : i ≤ tl T sa k) :
    lfAt T sa i = lfAt T sa (hd T sa k) + (i - hd T sa k) := by
  obtain ⟨d, rfl⟩ := Nat.exists_eq_add_of_le h1
  clear h1
  induction d with
  | zero => simp
  | succ d ih =>
    have hlt := tl_lt (T := T) (sa := sa) hk
    have := (lf_adj hT hsa (i := hd T sa k + d) (by omega)
      (by rw [bwt_run hk (by omega) (by omega), bwt_run hk (show hd T sa k ≤ hd T sa k + d + 1 by omega) (by omega)])).1
    rw [show hd T sa k + (d+1) = hd T sa k + d + 1 by omega, this, ih (by omega)]
    omega

/-- what follows a tail in LF order is a head -/
theorem head_after_tail (hT : IsText T) (hsa : IsSA T sa) {t : Nat} (ht : TailAt T sa t) (hlt : lfAt T sa t + 1 < T.length) :
    HeadAt T sa (psiAt T sa (lfAt T sa t + 1)) := by
  have h1 := psiAt_lt hsa hlt
  refine ⟨h1, ?_⟩
  by_contra hc
  push Not at hc
  obtain ⟨j, hj⟩ : ∃ j, psiAt T sa (lfAt T sa t + 1) = j + 1 := ⟨psiAt T sa (lfAt T sa t + 1) - 1, by omega⟩
  have hb := hc.2
  rw [hj, Nat.add_sub_cancel] at hb
  rw [hj] at h1
  have h2 := (lf_adj hT hsa h1 hb).1
  rw [← hj, lf_psi hsa hlt] at h2
  have h3 : t = j := lf_inj hsa ht.1 (by omega) (by omega)
  subst h3
  rcases ht.2 with h | h
  · omega
  · exact h hb

/-- the first suffix-array position is reached from a head -/
theorem head_psi_zero (hT : IsText T) (hsa : IsSA T sa) : HeadAt T sa (psiAt T sa 0) := by
  have hn := hT.pos
  have h1 := psiAt_lt hsa hn
  have h0 : saAt sa (psiAt T sa 0) = 0 := by
    rw [saAt_psiAt hsa hn, sa_zero hT hsa, Nat.sub_add_cancel (by omega), Nat.mod_self]
  exact (zero_headAt hT hsa h1 h0).1

theorem head_after (hT : IsText T) (hsa : IsSA T sa) {t : Nat} (ht : TailAt T sa t) :
    HeadAt T sa (psiAt T sa ((lfAt T sa t + 1) % T.length)) := by
  have := lfAt_lt hsa ht.1
  by_cases h : lfAt T sa t + 1 < T.length
  · rw [Nat.mod_eq_of_lt h]; exact head_after_tail hT hsa ht h
  · rw [show lfAt T sa t + 1 = T.length by omega, Nat.mod_self]; exact head_psi_zero hT hsa

/-- **walking forward together**: as long as no run tail is met, `i` and its right neighbour stay neighbours -/
theorem walk_forw (hT : IsText T) (hsa : IsSA T sa) {i : Nat} (h : i + 1 < T.length) (d : Nat)
    (hno : ∀ e, e < d → ¬ TailAt T sa (psiIt T sa (e+1) i)) :
    psiIt T sa d (i+1) = psiIt T sa d i + 1 := by
  induction d with
  | zero => rfl
  | succ d ih =>
    have ih := ih (fun e he => hno e (by omega))
    have hlt := psiIt_lt (T := T) hsa d (show i < T.length by omega)
    have hlt' := psiIt_lt (T := T) hsa d h
    have hn := hno d (by omega)
    rw [psiIt_succ] at hn
    have hp := psiAt_lt hsa hlt
    have hb : psiAt T sa (psiIt T sa d i) + 1 < T.length ∧
        bwtAt T sa (psiAt T sa (psiIt T sa d i)) = bwtAt T sa (psiAt T sa (psiIt T sa d i) + 1) := by
      by_contra hc
      apply hn
      refine ⟨hp, ?_⟩
      by_cases h' : psiAt T sa (psiIt T sa d i) + 1 < T.length
      · right; intro he; exact hc ⟨h', he⟩
      · left; omega
    have := (lf_adj hT hsa hb.1 hb.2).1
    rw [lf_psi hsa hlt] at this
    rw [psiIt_succ, psiIt_succ, ih, ← this, psi_lf hsa hb.1]

theorem last_tailMark (hT : IsText T) (hsa : IsSA T sa) : TailMark T sa (T.length - 1) := by
  have hn := hT.pos
  have h1 := psiAt_lt hsa hn
  have h0 : saAt sa (psiAt T sa 0) = 0 := by
    rw [saAt_psiAt hsa hn, sa_zero hT hsa, Nat.sub_add_cancel (by omega), Nat.mod_self]
  exact ⟨_, (zero_headAt hT hsa h1 h0).2, pv_of_zero hn h0⟩

theorem TailMark.lt (hn : 0 < T.length) {p : Nat} (h : TailMark T sa p) : p < T.length := by
  obtain ⟨t, _, rfl⟩ := h; exact pv_lt hn

/-- the mark reached from `SA[i]`: `d` positions later in the text -/
theorem succ_mark (hT : IsText T) (hsa : IsSA T sa) {i : Nat} (h : i < T.length) {p : Nat}
    (hp : CircSucc (TailMark T sa) (saAt sa i) p) :
    ∃ d, p = saAt sa i + d ∧ p < T.length ∧ TailAt T sa (psiIt T sa (d+1) i) ∧ pv T sa (psiIt T sa (d+1) i) = p ∧
      ∀ e, e < d → ¬ TailAt T sa (psiIt T sa (e+1) i) := by
  have hn := hT.pos
  have hv := saAt_lt hsa h
  obtain ⟨h1, h2⟩ := hp.2.1 ⟨T.length - 1, last_tailMark hT hsa, by omega⟩
  have hpl := hp.1.lt hn
  have key : ∀ e, saAt sa i + e < T.length → pv T sa (psiIt T sa (e+1) i) = saAt sa i + e := by
    intro e he
    rw [psiIt_succ, pv_psi hsa (psiIt_lt hsa e h), sa_psiIt hsa h e he]
  refine ⟨p - saAt sa i, by omega, hpl, ?_, by rw [key _ (by omega)]; omega, ?_⟩
  · obtain ⟨t, ht, htp⟩ := hp.1
    have := pv_inj hsa ht.1 (psiIt_lt hsa (p - saAt sa i + 1) h) (by rw [htp, key _ (by omega)]; omega)
    rw [← this]; exact ht
  · intro e he hte
    have := h2 _ ⟨_, hte, rfl⟩ (by rw [key e (by omega)]; omega)
    rw [key e (by omega)] at this
    omega

/-- **phi forward**: the mark following `SA[i]` belongs to a run tail reached after `d+1` psi steps, no tail being met before; the
    head that follows it in LF order is where the right neighbour arrives, so its sample gives `SA[i+1]`. -/
theorem phi_forw (hT : IsText T) (hsa : IsSA T sa) {i : Nat} (h : i + 1 < T.length) {p : Nat}
    (hp : CircSucc (TailMark T sa) (saAt sa i) p) :
    ∃ d, p = saAt sa i + d ∧ p < T.length ∧ TailAt T sa (psiIt T sa (d+1) i) ∧ pv T sa (psiIt T sa (d+1) i) = p ∧
      (∀ e, e < d → ¬ TailAt T sa (psiIt T sa (e+1) i)) ∧
      psiIt T sa d (i+1) = psiIt T sa d i + 1 ∧
      psiAt T sa ((lfAt T sa (psiIt T sa (d+1) i) + 1) % T.length) = psiIt T sa (d+1) (i+1) ∧
      (pv T sa (psiIt T sa (d+1) (i+1)) + T.length - d) % T.length = saAt sa (i+1) := by
  obtain ⟨d, h1, h2, h3, h4, h5⟩ := succ_mark hT hsa (by omega) hp
  have hw := walk_forw hT hsa h d h5
  have hlt := psiIt_lt (T := T) hsa d (show i < T.length by omega)
  have hlt' := psiIt_lt (T := T) hsa d h
  refine ⟨d, h1, h2, h3, h4, h5, hw, ?_, ?_⟩
  · rw [psiIt_succ, psiIt_succ, lf_psi hsa hlt, ← hw, Nat.mod_eq_of_lt hlt']
  · rw [psiIt_succ, pv_psi hsa hlt', sa_psiIt_mod hsa h]
    exact RIndex.mod_back (saAt_lt hsa h) (by omega) (by rw [Nat.mod_mod])

/-- psi leads from the last suffix-array position to a tail -/
theorem tail_psi_last (hT : IsText T) (hsa : IsSA T sa) : TailAt T sa (psiAt T sa (T.length - 1)) := by
  have hn := hT.pos
  have h1 := psiAt_lt hsa (show T.length - 1 < T.length by omega)
  refine ⟨h1, ?_⟩
  by_contra hc
  push Not at hc
  have h2 : psiAt T sa (T.length - 1) + 1 < T.length := by omega
  have := (lf_adj hT hsa h2 hc.2).1
  rw [lf_psi hsa (by omega)] at this
  have := lfAt_lt hsa h2
  omega

/-- **phi forward, circularly**: also from the last suffix-array position to the first -/
theorem phi_forw_circ (hT : IsText T) (hsa : IsSA T sa) {i : Nat} (h : i < T.length) {p : Nat}
    (hp : CircSucc (TailMark T sa) (saAt sa i) p) :
    ∃ d t, p = saAt sa i + d ∧ p < T.length ∧ TailAt T sa t ∧ pv T sa t = p ∧
      (pv T sa (psiAt T sa ((lfAt T sa t + 1) % T.length)) + T.length - d) % T.length = saAt sa ((i+1) % T.length) := by
  have hn := hT.pos
  by_cases hi : i + 1 < T.length
  · obtain ⟨d, h1, h2, h3, h4, -, -, h7, h8⟩ := phi_forw hT hsa hi hp
    exact ⟨d, _, h1, h2, h3, h4, by rw [h7, Nat.mod_eq_of_lt hi]; exact h8⟩
  · have hi' : i = T.length - 1 := by omega
    obtain ⟨d, h1, h2, h3, h4, h5⟩ := succ_mark hT hsa h hp
    have hd0 : d = 0 := by
      by_contra hc
      apply h5 0 (by omega)
      rw [psiIt_succ, psiIt_zero, hi']
      exact tail_psi_last hT hsa
    subst hd0
    refine ⟨0, _, h1, h2, h3, h4, ?_⟩
    rw [psiIt_succ, psiIt_zero, lf_psi hsa h, hi', Nat.sub_add_cancel (by omega), Nat.mod_self, pv_psi hsa hn, Nat.sub_zero,
      Nat.add_mod_right, Nat.mod_eq_of_lt (saAt_lt hsa hn)]

end Sri
