import Verif.Proofs.PsiNav
import Mathlib.Data.List.Perm.Lattice
/-! # The runs in the order of psi: by symbol, then by position -/
namespace Sri
set_option autoImplicit false
variable {T sa : List Nat}

/-- the runs sorted by symbol and, within a symbol, by position -/
def psiOrd (T sa : List Nat) (s : Nat) : List Nat :=
  (List.range s).flatMap (fun c => (List.range (nrun T sa)).filter (fun q => decide (sy T sa q = c)))

theorem flatMap_range_get {α : Type} (f : Nat → List α) {s c j : Nat} (hc : c < s) (hj : j < (f c).length) :
    ((List.range s).flatMap f)[((List.range c).map (fun d => (f d).length)).sum + j]? = (f c)[j]? := by
  obtain ⟨t, rfl⟩ := Nat.exists_eq_add_of_lt hc
  rw [show c + t + 1 = c + (t + 1) by omega, List.range_add, List.flatMap_append, List.range_succ_eq_map, List.map_cons,
    List.flatMap_cons]
  have hl : ((List.range c).flatMap f).length = ((List.range c).map (fun d => (f d).length)).sum := by
    rw [List.length_flatMap]
  rw [List.getElem?_append_right (by omega), hl, Nat.add_sub_cancel_left, Nat.add_zero, List.getElem?_append_left hj]

theorem filter_range_get {p : Nat → Bool} {r q : Nat} (hq : q < r) (hp : p q = true) :
    ((List.range r).filter p)[((List.range q).filter p).length]? = some q := by
  obtain ⟨t, rfl⟩ := Nat.exists_eq_add_of_lt hq
  rw [show q + t + 1 = q + (t + 1) by omega, List.range_add, List.filter_append, List.range_succ_eq_map, List.map_cons,
    Nat.add_zero, List.filter_cons, if_pos hp, List.getElem?_append_right (Nat.le_refl _), Nat.sub_self]
  rfl

theorem crank_filter {c q : Nat} (hq : q ≤ nrun T sa) :
    Rep.crank (runsOf T sa) c q = ((List.range q).filter (fun k => decide (sy T sa k = c))).length := by
  rw [Rep.crank, ← List.countP_eq_length_filter]
  have h2 : ((runsOf T sa).take q).map Prod.fst = (List.range q).map (sy T sa) := by
    apply List.ext_getElem?
    intro k
    rw [List.getElem?_map, List.getElem?_map, List.getElem?_take]
    by_cases hk : k < q
    · rw [if_pos hk, List.getElem?_range hk]
      have hk' : k < nrun T sa := by omega
      have hk2 : k < (runsOf T sa).length := hk'
      rw [List.getElem?_eq_getElem hk2, Option.map_some, Option.map_some, sy_eq hk']; rfl
    · rw [if_neg hk, List.getElem?_eq_none (by simp; omega)]; rfl
  have h3 := congrArg (List.countP (· == c)) h2
  rw [List.countP_map, List.countP_map] at h3
  rw [show (fun q : Nat × Nat => q.1 == c) = ((· == c) ∘ Prod.fst) from rfl, h3]
  congr 1

theorem symIdx_eq {q : Nat} (hq : q < nrun T sa) :
    symIdx T sa q = ((List.range q).filter (fun k => decide (sy T sa k = sy T sa q))).length := by
  have h := symRunsBefore_rstart (R := runsOf T sa) runsOf_pos (rle_alternating _) (sy T sa q) (show q ≤ (runsOf T sa).length from Nat.le_of_lt hq)
  rw [expand_runsOf] at h
  rw [symIdx, bwtSeq, hd, h, ← crank_filter (Nat.le_of_lt hq)]

theorem symCount_eq (c : Nat) :
    (symRuns (rle (bwtSeq T sa)) c).length = ((List.range (nrun T sa)).filter (fun k => decide (sy T sa k = c))).length := by
  rw [symRuns_length]; exact crank_filter (Nat.le_refl _)

theorem mem_psiOrd {s q : Nat} : q ∈ psiOrd T sa s ↔ q < nrun T sa ∧ sy T sa q < s := by
  simp only [psiOrd, List.mem_flatMap, List.mem_range, List.mem_filter, decide_eq_true_eq]
  constructor
  · rintro ⟨c, h1, h2, h3⟩; exact ⟨h2, by omega⟩
  · rintro ⟨h1, h2⟩; exact ⟨_, h2, h1, rfl⟩

theorem bwt_hd {q : Nat} (hq : q < nrun T sa) : bwtAt T sa (hd T sa q) = sy T sa q := bwt_run hq (Nat.le_refl _) (hd_le_tl hq)
theorem bwt_tl {q : Nat} (hq : q < nrun T sa) : bwtAt T sa (tl T sa q) = sy T sa q := bwt_run hq (hd_le_tl hq) (Nat.le_refl _)

theorem psiOrd_sorted (hT : IsText T) (hsa : IsSA T sa) (s : Nat) :
    (psiOrd T sa s).Pairwise (fun a b => lfAt T sa (hd T sa a) < lfAt T sa (hd T sa b)) := by
  unfold psiOrd
  rw [List.pairwise_flatMap]
  constructor
  · intro c _
    have hp : ((List.range (nrun T sa)).filter (fun q => decide (sy T sa q = c))).Pairwise (· < ·) :=
      List.Pairwise.sublist List.filter_sublist List.pairwise_lt_range
    refine hp.imp_of_mem ?_
    intro a b ha hb hab
    simp only [List.mem_filter, List.mem_range, decide_eq_true_eq] at ha hb
    rw [lf_lt_iff hT hsa (hd_lt ha.1) (hd_lt hb.1) (by rw [bwt_hd ha.1, bwt_hd hb.1]; omega)]
    exact hd_strict hab hb.1
  · refine List.pairwise_lt_range.imp ?_
    intro c d hcd a ha b hb
    simp only [List.mem_filter, List.mem_range, decide_eq_true_eq] at ha hb
    by_contra hc
    have h1 := first_char_mono hsa (show lfAt T sa (hd T sa b) ≤ lfAt T sa (hd T sa a) by omega) (lfAt_lt hsa (hd_lt ha.1))
    rw [← bwtAt_eq hsa (hd_lt ha.1), ← bwtAt_eq hsa (hd_lt hb.1), bwt_hd ha.1, bwt_hd hb.1] at h1
    omega

theorem psiOrd_nodup (hT : IsText T) (hsa : IsSA T sa) (s : Nat) : (psiOrd T sa s).Nodup :=
  (psiOrd_sorted hT hsa s).imp (fun h he => by rw [he] at h; exact Nat.lt_irrefl _ h)

theorem psiOrd_perm (hT : IsText T) (hsa : IsSA T sa) {s : Nat} (hs : ∀ q, q < nrun T sa → sy T sa q < s) :
    (psiOrd T sa s).Perm (List.range (nrun T sa)) := by
  rw [List.perm_ext_iff_of_nodup (psiOrd_nodup hT hsa s) List.nodup_range]
  intro q
  rw [mem_psiOrd, List.mem_range]
  exact ⟨fun h => h.1, fun h => ⟨h, hs q h⟩⟩

/-- where a run is found in psi order -/
theorem psiOrd_get {s q : Nat} (hq : q < nrun T sa) (hs : sy T sa q < s) :
    (psiOrd T sa s)[((List.range (sy T sa q)).map (fun d => (symRuns (rle (bwtSeq T sa)) d).length)).sum + symIdx T sa q]? = some q := by
  have h1 := filter_range_get (p := fun k => decide (sy T sa k = sy T sa q)) hq (by simp)
  have hj := (List.getElem?_eq_some_iff.1 h1).1
  have h2 := flatMap_range_get (fun c => (List.range (nrun T sa)).filter (fun q => decide (sy T sa q = c))) hs hj
  rw [h1] at h2
  rw [psiOrd, symIdx_eq hq]
  simp only [symCount_eq]
  exact h2

/-- in psi order a run is followed, circularly, by the run whose head comes next in LF order -/
theorem psiOrd_next (hT : IsText T) (hsa : IsSA T sa) {s : Nat} (hs : ∀ q, q < nrun T sa → sy T sa q < s) {m k : Nat}
    (hm : (psiOrd T sa s)[m]? = some k) :
    ∃ k', (psiOrd T sa s)[(m + 1) % (psiOrd T sa s).length]? = some k' ∧ k' < nrun T sa ∧
      hd T sa k' = psiAt T sa ((lfAt T sa (tl T sa k) + 1) % T.length) := by
  have hsort := psiOrd_sorted hT hsa s
  have hml := (List.getElem?_eq_some_iff.1 hm).1
  have hk := (mem_psiOrd.1 (List.mem_of_getElem? hm)).1
  have hn := hT.pos
  obtain ⟨k', hk', hhd⟩ := headAt_iff.1 (head_after hT hsa (tailAt_tl (T := T) (sa := sa) hk))
  obtain ⟨j, hj⟩ := List.getElem?_of_mem (mem_psiOrd.2 ⟨hk', hs k' hk'⟩)
  have hjl := (List.getElem?_eq_some_iff.1 hj).1
  have hlt : (lfAt T sa (tl T sa k) + 1) % T.length < T.length := Nat.mod_lt _ hn
  have hlf : lfAt T sa (hd T sa k') = (lfAt T sa (tl T sa k) + 1) % T.length := by rw [hhd, lf_psi hsa hlt]
  have hidx : ∀ {a b x y : Nat}, (psiOrd T sa s)[a]? = some x → (psiOrd T sa s)[b]? = some y → a < b →
      lfAt T sa (hd T sa x) < lfAt T sa (hd T sa y) := by
    intro a b x y ha hb hab
    obtain ⟨ha1, rfl⟩ := List.getElem?_eq_some_iff.1 ha
    obtain ⟨hb1, rfl⟩ := List.getElem?_eq_some_iff.1 hb
    exact List.pairwise_iff_getElem.1 hsort a b ha1 hb1 hab
  have htl := lf_run hT hsa hk (hd_le_tl hk) (Nat.le_refl _)
  have htln := lfAt_lt hsa (tl_lt (T := T) (sa := sa) hk)
  refine ⟨k', ?_, hk', hhd⟩
  -- no head lies strictly inside the image of run `k`
  have hbetween : ∀ x, x < nrun T sa → lfAt T sa (hd T sa k) < lfAt T sa (hd T sa x) → lfAt T sa (tl T sa k) < lfAt T sa (hd T sa x) := by
    intro x hx h1
    by_contra hc
    set i := hd T sa k + (lfAt T sa (hd T sa x) - lfAt T sa (hd T sa k)) with hi
    have hi2 : i ≤ tl T sa k := by omega
    have e := lf_run hT hsa hk (show hd T sa k ≤ i by omega) hi2
    have : i = hd T sa x := lf_inj hsa (by have := tl_lt (T := T) (sa := sa) hk; omega) (hd_lt hx) (by omega)
    have hxk : x = k := run_unique (i := i) hx hk (by omega) (by have := hd_le_tl hx; omega) (by omega) hi2
    rw [hxk] at h1; omega
  by_cases hw : lfAt T sa (tl T sa k) + 1 < T.length
  · rw [Nat.mod_eq_of_lt hw] at hlf
    have hmj : m < j := by
      rcases Nat.lt_trichotomy m j with h | h | h
      · exact h
      · subst h
        rw [hm] at hj
        obtain rfl := Option.some_inj.1 hj
        have := hd_le_tl (T := T) (sa := sa) hk
        omega
      · have := hidx hj hm h; omega
    have hj1 : j = m + 1 := by
      by_contra hc
      obtain ⟨x, hx⟩ : ∃ x, (psiOrd T sa s)[m+1]? = some x := ⟨_, List.getElem?_eq_getElem (by omega)⟩
      have h1 := hidx hm hx (by omega)
      have h2 := hidx hx hj (by omega)
      have := hbetween x (mem_psiOrd.1 (List.mem_of_getElem? hx)).1 h1
      omega
    rw [Nat.mod_eq_of_lt (by omega), ← hj1]; exact hj
  · have hz : lfAt T sa (tl T sa k) + 1 = T.length := by omega
    rw [hz, Nat.mod_self] at hlf
    have hj0 : j = 0 := by
      by_contra hc
      obtain ⟨x, hx⟩ : ∃ x, (psiOrd T sa s)[0]? = some x := ⟨_, List.getElem?_eq_getElem (by omega)⟩
      have := hidx hx hj (by omega)
      omega
    have hm1 : m + 1 = (psiOrd T sa s).length := by
      by_contra hc
      obtain ⟨x, hx⟩ : ∃ x, (psiOrd T sa s)[m+1]? = some x := ⟨_, List.getElem?_eq_getElem (by omega)⟩
      have h1 := hidx hm hx (by omega)
      have hxn := (mem_psiOrd.1 (List.mem_of_getElem? hx)).1
      have h2 := hbetween x hxn h1
      have := lfAt_lt hsa (hd_lt (T := T) (sa := sa) hxn)
      omega
    rw [hm1, Nat.mod_self, ← hj0]; exact hj

end Sri
