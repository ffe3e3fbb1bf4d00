import Verif.Proofs.SATheory
import Verif.Proofs.Marks
/-! # Theory of phi: run heads, run tails, and how neighbours in the suffix array travel together -/
namespace Sri
set_option autoImplicit false

section
variable {T sa : List Nat}

/-- `i` is the first position of a BWT run -/
def HeadAt (T sa : List Nat) (i : Nat) : Prop := i < T.length ∧ (i = 0 ∨ bwtAt T sa (i-1) ≠ bwtAt T sa i)

/-- `i` is the last position of a BWT run -/
def TailAt (T sa : List Nat) (i : Nat) : Prop := i < T.length ∧ (i + 1 = T.length ∨ bwtAt T sa i ≠ bwtAt T sa (i+1))

/-- text position of the BWT character at `i` -/
def pv (T sa : List Nat) (i : Nat) : Nat := (saAt sa i + T.length - 1) % T.length

/-- iterated LF -/
def lfIt (T sa : List Nat) (d i : Nat) : Nat := (lfAt T sa)^[d] i

/-- iterated psi -/
def psiIt (T sa : List Nat) (d i : Nat) : Nat := (psiAt T sa)^[d] i

theorem lfIt_zero (i : Nat) : lfIt T sa 0 i = i := rfl
theorem lfIt_succ (d i : Nat) : lfIt T sa (d+1) i = lfAt T sa (lfIt T sa d i) := Function.iterate_succ_apply' _ _ _
theorem lfIt_succ' (d i : Nat) : lfIt T sa (d+1) i = lfIt T sa d (lfAt T sa i) := Function.iterate_succ_apply _ _ _
theorem psiIt_zero (i : Nat) : psiIt T sa 0 i = i := rfl
theorem psiIt_succ (d i : Nat) : psiIt T sa (d+1) i = psiAt T sa (psiIt T sa d i) := Function.iterate_succ_apply' _ _ _
theorem psiIt_succ' (d i : Nat) : psiIt T sa (d+1) i = psiIt T sa d (psiAt T sa i) := Function.iterate_succ_apply _ _ _

theorem lfIt_lt (hsa : IsSA T sa) (d : Nat) {i : Nat} (h : i < T.length) : lfIt T sa d i < T.length := by
  induction d with
  | zero => exact h
  | succ d ih => rw [lfIt_succ]; exact lfAt_lt hsa ih

theorem psiIt_lt (hsa : IsSA T sa) (d : Nat) {i : Nat} (h : i < T.length) : psiIt T sa d i < T.length := by
  induction d with
  | zero => exact h
  | succ d ih => rw [psiIt_succ]; exact psiAt_lt hsa ih

theorem pv_eq (hsa : IsSA T sa) {i : Nat} (h : i < T.length) : pv T sa i = saAt sa (lfAt T sa i) := (saAt_lfAt hsa h).symm

theorem pv_lt {i : Nat} (h : 0 < T.length) : pv T sa i < T.length := Nat.mod_lt _ h

theorem pv_inj (hsa : IsSA T sa) {i j : Nat} (hi : i < T.length) (hj : j < T.length) (h : pv T sa i = pv T sa j) :
    i = j := by
  rw [pv_eq hsa hi, pv_eq hsa hj] at h
  exact lf_inj hsa hi hj (saAt_inj hsa (lfAt_lt hsa hi) (lfAt_lt hsa hj) h)

theorem pv_of_pos (hsa : IsSA T sa) {i : Nat} (h : i < T.length) (h0 : 0 < saAt sa i) : pv T sa i = saAt sa i - 1 := by
  have := saAt_lt hsa h
  rw [pv, show saAt sa i + T.length - 1 = (saAt sa i - 1) + T.length by omega, Nat.add_mod_right, Nat.mod_eq_of_lt (by omega)]

theorem pv_of_zero {i : Nat} (hn : 0 < T.length) (h0 : saAt sa i = 0) : pv T sa i = T.length - 1 := by
  rw [pv, h0, Nat.zero_add, Nat.mod_eq_of_lt (by omega)]

theorem sa_lf_of_pos (hsa : IsSA T sa) {i : Nat} (h : i < T.length) (h0 : 0 < saAt sa i) :
    saAt sa (lfAt T sa i) = saAt sa i - 1 := by rw [← pv_eq hsa h, pv_of_pos hsa h h0]

theorem sa_lfIt (hsa : IsSA T sa) {i : Nat} (h : i < T.length) (d : Nat) (hd : d ≤ saAt sa i) :
    saAt sa (lfIt T sa d i) = saAt sa i - d := by
  induction d with
  | zero => simp [lfIt_zero]
  | succ d ih =>
    have ih := ih (by omega)
    rw [lfIt_succ, sa_lf_of_pos hsa (lfIt_lt hsa d h) (by omega), ih]; omega

/-- modular form, for any number of steps not above the text length plus the value -/
theorem sa_lfIt_mod (hsa : IsSA T sa) {i : Nat} (h : i < T.length) (d : Nat) :
    (saAt sa (lfIt T sa d i) + d) % T.length = saAt sa i := by
  induction d with
  | zero => rw [lfIt_zero, Nat.add_zero, Nat.mod_eq_of_lt (saAt_lt hsa h)]
  | succ d ih =>
    rw [lfIt_succ, saAt_lfAt hsa (lfIt_lt hsa d h), Nat.mod_add_mod,
      show saAt sa (lfIt T sa d i) + T.length - 1 + (d+1) = saAt sa (lfIt T sa d i) + d + T.length by omega,
      Nat.add_mod_right, ih]

theorem sa_psiIt_mod (hsa : IsSA T sa) {i : Nat} (h : i < T.length) (d : Nat) :
    saAt sa (psiIt T sa d i) = (saAt sa i + d) % T.length := by
  induction d with
  | zero => rw [psiIt_zero, Nat.add_zero, Nat.mod_eq_of_lt (saAt_lt hsa h)]
  | succ d ih =>
    rw [psiIt_succ, saAt_psiAt hsa (psiIt_lt hsa d h), ih, Nat.mod_add_mod]; congr 1

theorem sa_psiIt (hsa : IsSA T sa) {i : Nat} (h : i < T.length) (d : Nat) (hd : saAt sa i + d < T.length) :
    saAt sa (psiIt T sa d i) = saAt sa i + d := by
  rw [sa_psiIt_mod hsa h, Nat.mod_eq_of_lt hd]

/-- the terminator's suffix is the smallest -/
theorem sa_zero (hT : IsText T) (hsa : IsSA T sa) : saAt sa 0 = T.length - 1 := by
  have hn := hT.pos
  have h1 : 0 < cumC T 1 := by
    rw [cumC, List.countP_pos_iff]
    refine ⟨0, ?_, by simp⟩
    obtain ⟨u, rfl, _⟩ := hT; simp
  have := (lt_cumC_iff hsa (c := 1) hn).2 h1
  exact (hT.tx_zero_iff (saAt_lt hsa hn)).1 (by omega)

theorem sa_ne_last (hT : IsText T) (hsa : IsSA T sa) {i : Nat} (h1 : 1 ≤ i) (h : i < T.length) :
    saAt sa i < T.length - 1 := by
  have hlt := saAt_lt hsa h
  have : saAt sa i ≠ T.length - 1 := by
    intro he
    have := saAt_inj hsa h hT.pos (by rw [he, sa_zero hT hsa])
    omega
  omega

/-- **neighbours with the same BWT character stay neighbours under LF** -/
theorem lf_adj (hT : IsText T) (hsa : IsSA T sa) {i : Nat} (h : i + 1 < T.length)
    (hb : bwtAt T sa i = bwtAt T sa (i+1)) :
    lfAt T sa (i+1) = lfAt T sa i + 1 ∧ 0 < saAt sa i ∧ 0 < saAt sa (i+1) := by
  have h1 := lf_formula hT hsa (show i < T.length by omega)
  have h2 := lf_formula hT hsa h
  rw [← hb, Nat.count_succ, if_pos rfl] at h2
  refine ⟨by omega, ?_, ?_⟩
  · by_contra hc
    have hz := (bwtAt_zero_iff hT hsa (show i < T.length by omega)).2 (by omega)
    have h3 := (bwtAt_zero_iff hT hsa h).1 (by rw [← hb]; exact hz)
    have := saAt_inj hsa (show i < T.length by omega) h (by omega)
    omega
  · by_contra hc
    have hz := (bwtAt_zero_iff hT hsa h).2 (by omega)
    have h3 := (bwtAt_zero_iff hT hsa (show i < T.length by omega)).1 (by rw [hb]; exact hz)
    have := saAt_inj hsa (show i < T.length by omega) h (by omega)
    omega

/-- the position whose BWT character is the terminator is a run of its own -/
theorem zero_headAt (hT : IsText T) (hsa : IsSA T sa) {i : Nat} (h : i < T.length) (h0 : saAt sa i = 0) :
    HeadAt T sa i ∧ TailAt T sa i := by
  constructor
  · refine ⟨h, ?_⟩
    by_contra hc
    push Not at hc
    obtain ⟨j, rfl⟩ : ∃ j, i = j + 1 := ⟨i - 1, by omega⟩
    have := lf_adj hT hsa h (by simpa using hc.2)
    omega
  · refine ⟨h, ?_⟩
    by_contra hc
    push Not at hc
    have := lf_adj hT hsa (show i + 1 < T.length by omega) hc.2
    omega

/-- **walking back together**: as long as no run head is met, `i` and its left neighbour stay neighbours -/
theorem walk_back (hT : IsText T) (hsa : IsSA T sa) {i : Nat} (h1 : 1 ≤ i) (h : i < T.length) (d : Nat)
    (hno : ∀ e, e < d → ¬ HeadAt T sa (lfIt T sa e i)) :
    1 ≤ lfIt T sa d i ∧ lfIt T sa d (i-1) = lfIt T sa d i - 1 ∧ d ≤ saAt sa i ∧ d ≤ saAt sa (i-1) := by
  induction d with
  | zero => simp [lfIt_zero, h1]
  | succ d ih =>
    obtain ⟨a1, a2, a3, a4⟩ := ih (fun e he => hno e (by omega))
    have hlt := lfIt_lt (T := T) hsa d h
    have hn := hno d (by omega)
    have hb : bwtAt T sa (lfIt T sa d i - 1) = bwtAt T sa (lfIt T sa d i) := by
      by_contra hc; exact hn ⟨hlt, Or.inr hc⟩
    obtain ⟨j, hj⟩ : ∃ j, lfIt T sa d i = j + 1 := ⟨lfIt T sa d i - 1, by omega⟩
    rw [hj, Nat.add_sub_cancel] at hb
    obtain ⟨b1, b2, b3⟩ := lf_adj hT hsa (by omega) hb
    have c1 := sa_lfIt hsa h d a3
    have c2 := sa_lfIt hsa (show i - 1 < T.length by omega) d a4
    rw [a2, hj, Nat.add_sub_cancel] at c2
    rw [hj] at c1
    rw [lfIt_succ, lfIt_succ, a2, hj, Nat.add_sub_cancel, b1]
    refine ⟨by omega, by omega, by omega, by omega⟩

/-- marks: text positions of the BWT characters at run heads -/
def HeadMark (T sa : List Nat) (p : Nat) : Prop := ∃ h, HeadAt T sa h ∧ pv T sa h = p

/-- **phi backward**: the mark preceding `SA[i]` belongs to a run head `h` reached after `d` LF steps from `i`, no head being
    met before; the tail before `h` is where the left neighbour arrives, so its sample gives `SA[i-1]`. -/
theorem phi_back (hT : IsText T) (hsa : IsSA T sa) {i : Nat} (h1 : 1 ≤ i) (h : i < T.length) {p : Nat}
    (hp : CircPred (HeadMark T sa) (saAt sa i) p) :
    ∃ d, (if p < saAt sa i then saAt sa i - p else saAt sa i + 1) = d + 1 ∧
      HeadAt T sa (lfIt T sa d i) ∧ 1 ≤ lfIt T sa d i ∧ pv T sa (lfIt T sa d i) = p ∧
      (∀ e, e < d → ¬ HeadAt T sa (lfIt T sa e i)) ∧
      (pv T sa (lfIt T sa d i - 1) + (d + 1)) % T.length = saAt sa (i-1) := by
  have hn := hT.pos
  have hv := saAt_lt hsa h
  -- number of steps
  obtain ⟨d, hd, hdle, hno, hpd⟩ : ∃ d, (if p < saAt sa i then saAt sa i - p else saAt sa i + 1) = d + 1 ∧
      d ≤ saAt sa i ∧ (∀ e, e < d → ¬ HeadAt T sa (lfIt T sa e i)) ∧ pv T sa (lfIt T sa d i) = p := by
    by_cases hex : ∃ q, HeadMark T sa q ∧ q < saAt sa i
    · obtain ⟨hlt, hmax⟩ := hp.2.1 hex
      refine ⟨saAt sa i - 1 - p, by rw [if_pos hlt]; omega, by omega, ?_, ?_⟩
      · intro e he hh
        have e1 := sa_lfIt hsa h e (by omega)
        have e2 := pv_of_pos hsa (lfIt_lt hsa e h) (by omega)
        have := hmax _ ⟨_, hh, rfl⟩ (by omega)
        omega
      · have e1 := sa_lfIt hsa h (saAt sa i - 1 - p) (by omega)
        rw [pv_of_pos hsa (lfIt_lt hsa _ h) (by omega)]
        omega
    · have hall : ∀ q, HeadMark T sa q → saAt sa i ≤ q := fun q hq => by
        by_contra hc; exact hex ⟨q, hq, by omega⟩
      have hmax := hp.2.2 hall
      have hpge := hall p hp.1
      refine ⟨saAt sa i, by rw [if_neg (by omega)], Nat.le_refl _, ?_, ?_⟩
      · intro e he hh
        have e1 := sa_lfIt hsa h e (by omega)
        have e2 := pv_of_pos hsa (lfIt_lt hsa e h) (by omega)
        have := hall _ ⟨_, hh, rfl⟩
        omega
      · have e1 := sa_lfIt hsa h (saAt sa i) (Nat.le_refl _)
        have e2 := pv_of_zero (i := lfIt T sa (saAt sa i) i) (T := T) (sa := sa) hn (by omega)
        have e3 := hmax _ ⟨_, (zero_headAt hT hsa (lfIt_lt hsa (saAt sa i) h) (by omega)).1, rfl⟩
        obtain ⟨x, hx, hxp⟩ := hp.1
        have := pv_lt (T := T) (sa := sa) (i := x) hn
        omega
  obtain ⟨w1, w2, w3, w4⟩ := walk_back hT hsa h1 h d hno
  have hlt := lfIt_lt (T := T) hsa d h
  refine ⟨d, hd, ?_, w1, hpd, hno, ?_⟩
  · obtain ⟨x, hx, hxp⟩ := hp.1
    have := pv_inj hsa hx.1 hlt (by rw [hxp, hpd])
    rw [← this]; exact hx
  · rw [← w2, pv, Nat.mod_add_mod, sa_lfIt hsa (by omega) d w4,
      show saAt sa (i-1) - d + T.length - 1 + (d+1) = saAt sa (i-1) + T.length by omega, Nat.add_mod_right,
      Nat.mod_eq_of_lt (saAt_lt hsa (by omega))]

/-- What subsampling guarantees about the kept run tails (a set of BWT positions): a dropped one lies strictly between two
    kept ones whose text positions are at most `s` apart. -/
def TailSampling (T sa : List Nat) (s : Nat) (kept : Nat → Prop) : Prop :=
  (∀ y, kept y → TailAt T sa y) ∧
  ∀ y, TailAt T sa y → ¬ kept y → ∃ a b, kept a ∧ kept b ∧ pv T sa a < pv T sa y ∧ pv T sa y < pv T sa b ∧
    pv T sa b - pv T sa a ≤ s

/-- **subsampled phi backward**: if the walk from the left neighbour meets no kept tail during its first `s` steps, then the tail whose
    sample phi needs is kept. -/
theorem sub_phi_back (hT : IsText T) (hsa : IsSA T sa) {s : Nat} {kept : Nat → Prop} (hk : TailSampling T sa s kept)
    {i : Nat} (h1 : 1 ≤ i) (h : i < T.length) {d : Nat} (hh : HeadAt T sa (lfIt T sa d i)) (hh1 : 1 ≤ lfIt T sa d i)
    (hno : ∀ e, e < d → ¬ HeadAt T sa (lfIt T sa e i)) (hs : ∀ e, e < s → ¬ kept (lfIt T sa e (i-1))) :
    kept (lfIt T sa d i - 1) := by
  have hn := hT.pos
  obtain ⟨w1, w2, w3, w4⟩ := walk_back hT hsa h1 h d hno
  by_contra hnk
  have hlt := lfIt_lt (T := T) hsa d h
  have hi1 : i - 1 < T.length := by omega
  have ht : TailAt T sa (lfIt T sa d i - 1) := by
    refine ⟨by omega, Or.inr ?_⟩
    rw [Nat.sub_add_cancel hh1]
    rcases hh.2 with h0 | h0
    · omega
    · exact h0
  obtain ⟨a, b, ha, hb, hay, hyb, hab⟩ := hk.2 _ ht hnk
  have hat := (hk.1 a ha).1
  have hbt := hk.1 b hb
  have hpvb := pv_lt (T := T) (sa := sa) (i := b) hn
  rw [← w2] at hay hyb
  have hsd := sa_lfIt hsa hi1 d w4
  have hsai := saAt_lt hsa hi1
  have hpos : 0 < saAt sa (lfIt T sa d (i-1)) := by
    by_contra hc
    have := pv_of_zero (T := T) (sa := sa) (i := lfIt T sa d (i-1)) hn (by omega)
    omega
  have hq := pv_of_pos hsa (lfIt_lt hsa d hi1) hpos
  -- the upper kept tail is not met by the walk, since the walk stays inside runs
  have hbge : saAt sa (i-1) ≤ pv T sa b := by
    by_contra hc
    obtain ⟨e, he⟩ : ∃ e, saAt sa (i-1) = e + 1 + pv T sa b := ⟨saAt sa (i-1) - 1 - pv T sa b, by omega⟩
    have hed : e < d := by omega
    have e1 := sa_lfIt hsa hi1 e (by omega)
    have e2 := pv_of_pos hsa (lfIt_lt hsa e hi1) (by omega)
    have hbe : b = lfIt T sa e (i-1) := pv_inj hsa hbt.1 (lfIt_lt hsa e hi1) (by omega)
    obtain ⟨x1, x2, x3, x4⟩ := walk_back hT hsa h1 h e (fun e' he' => hno e' (by omega))
    have hnh := hno e hed
    have hlte := lfIt_lt (T := T) hsa e h
    rcases hbt.2 with hb2 | hb2
    · rw [hbe, x2] at hb2; omega
    · apply hnh
      refine ⟨hlte, Or.inr ?_⟩
      rw [hbe, x2, Nat.sub_add_cancel x1] at hb2
      exact hb2
  -- hence the lower kept tail is among the first `s` steps
  obtain ⟨e, he⟩ : ∃ e, saAt sa (i-1) = e + 1 + pv T sa a := ⟨saAt sa (i-1) - 1 - pv T sa a, by omega⟩
  have e1 := sa_lfIt hsa hi1 e (by omega)
  have e2 := pv_of_pos hsa (lfIt_lt hsa e hi1) (by omega)
  have hae : a = lfIt T sa e (i-1) := pv_inj hsa hat (lfIt_lt hsa e hi1) (by omega)
  exact hs e (by omega) (hae ▸ ha)

end
end Sri
