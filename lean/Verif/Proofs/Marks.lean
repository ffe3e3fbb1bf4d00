import Verif.Props.SequenceOps
import Verif.Model.Construct
import Mathlib.Data.List.Perm.Basic
/-! # Sorted marks: the order found in the bit vector indexes the sorted list of marks -/
namespace Sri
set_option autoImplicit false

/-! ## sortBy -/

theorem insertBy_perm {α : Type} (key : α → Nat) (x : α) (l : List α) : (insertBy key x l).Perm (x :: l) := by
  induction l with
  | nil => exact List.Perm.refl _
  | cons y l ih =>
    rw [insertBy]
    split
    · exact List.Perm.refl _
    · exact (ih.cons y).trans (List.Perm.swap x y l)

theorem sortBy_perm {α : Type} (key : α → Nat) (l : List α) : (sortBy key l).Perm l := by
  induction l with
  | nil => exact List.Perm.refl _
  | cons x l ih => exact (insertBy_perm key x _).trans (ih.cons x)

theorem insertBy_sorted {α : Type} (key : α → Nat) (x : α) (l : List α) (h : l.Pairwise (fun a b => key a ≤ key b)) :
    (insertBy key x l).Pairwise (fun a b => key a ≤ key b) := by
  induction l with
  | nil => simp [insertBy]
  | cons y l ih =>
    rw [List.pairwise_cons] at h
    rw [insertBy]
    split
    · rename_i hlt
      rw [List.pairwise_cons]
      refine ⟨?_, List.pairwise_cons.2 h⟩
      intro z hz
      rcases List.mem_cons.1 hz with rfl | hz
      · omega
      · have := h.1 z hz; omega
    · rename_i hlt
      rw [List.pairwise_cons]
      refine ⟨?_, ih h.2⟩
      intro z hz
      rcases List.mem_cons.1 ((insertBy_perm key x l).mem_iff.1 hz) with rfl | hz
      · omega
      · exact h.1 z hz

theorem sortBy_sorted {α : Type} (key : α → Nat) (l : List α) : (sortBy key l).Pairwise (fun a b => key a ≤ key b) := by
  induction l with
  | nil => simp [sortBy]
  | cons x l ih => exact insertBy_sorted key x _ ih

theorem sortBy_strict {α : Type} {key : α → Nat} {l : List α} (hd : (l.map key).Nodup) :
    (sortBy key l).Pairwise (fun a b => key a < key b) := by
  have h1 := sortBy_sorted key l
  have h2 : ((sortBy key l).map key).Nodup := ((sortBy_perm key l).map key).nodup_iff.2 hd
  rw [List.Nodup, List.pairwise_map] at h2
  exact (h1.and h2).imp (fun h => by omega)

/-- in a strictly sorted list, the entry at position `o` has exactly `o` smaller keys -/
theorem strict_index {key : Nat → Nat} {l : List Nat} (h : l.Pairwise (fun a b => key a < key b)) {k : Nat} (hk : k ∈ l) :
    l[l.countP (fun a => decide (key a < key k))]? = some k := by
  induction l with
  | nil => simp at hk
  | cons x l ih =>
    rw [List.pairwise_cons] at h
    rcases List.mem_cons.1 hk with rfl | hk
    · have : (k :: l).countP (fun a => decide (key a < key k)) = 0 := by
        rw [List.countP_eq_zero]
        intro a ha
        rcases List.mem_cons.1 ha with rfl | ha
        · simp
        · have := h.1 a ha; simp; omega
      rw [this]; rfl
    · have := h.1 k hk
      rw [List.countP_cons_of_pos (by simpa using this), List.getElem?_cons_succ]
      exact ih h.2 hk

theorem sortIndices_perm (vals : List Nat) : (sortIndices vals).Perm (List.range vals.length) := sortBy_perm _ _

theorem sortIndices_length (vals : List Nat) : (sortIndices vals).length = vals.length := by
  simpa using (sortIndices_perm vals).length_eq

theorem map_getD_range (vals : List Nat) : (List.range vals.length).map (fun i => vals.getD i 0) = vals := by
  apply List.ext_getElem
  · simp
  · intro i h1 h2; simp at h1; simp [h1]

theorem sortIndices_strict {vals : List Nat} (hd : vals.Nodup) :
    (sortIndices vals).Pairwise (fun a b => vals.getD a 0 < vals.getD b 0) := by
  apply sortBy_strict
  rw [map_getD_range]; exact hd

theorem countP_sortIndices (vals : List Nat) (p : Nat → Bool) :
    (sortIndices vals).countP (fun a => p (vals.getD a 0)) = vals.countP p := by
  rw [(sortIndices_perm vals).countP_eq]
  conv => rhs; rw [← map_getD_range vals, List.countP_map]
  rfl

theorem sortIndices_index {vals : List Nat} (hd : vals.Nodup) {k : Nat} (hk : k < vals.length) :
    (sortIndices vals)[vals.countP (fun a => decide (a < vals.getD k 0))]? = some k := by
  have := strict_index (sortIndices_strict hd) (k := k) ((sortIndices_perm vals).mem_iff.2 (by simpa using hk))
  rwa [countP_sortIndices vals (fun a => decide (a < vals.getD k 0))] at this

/-! ## circular predecessor / successor of a set of positions -/

/-- `p` is the greatest member below `v`, or, without any, the greatest member. -/
def CircPred (M : Nat → Prop) (v p : Nat) : Prop :=
  M p ∧ ((∃ q, M q ∧ q < v) → p < v ∧ ∀ q, M q → q < v → q ≤ p) ∧ ((∀ q, M q → v ≤ q) → ∀ q, M q → q ≤ p)

/-- `p` is the smallest member not below `v`, or, without any, the smallest member. -/
def CircSucc (M : Nat → Prop) (v p : Nat) : Prop :=
  M p ∧ ((∃ q, M q ∧ v ≤ q) → v ≤ p ∧ ∀ q, M q → v ≤ q → p ≤ q) ∧ ((∀ q, M q → q < v) → ∀ q, M q → p ≤ q)

theorem CircPred.unique {M : Nat → Prop} {v p q : Nat} (h1 : CircPred M v p) (h2 : CircPred M v q) : p = q := by
  by_cases h : ∃ x, M x ∧ x < v
  · have a := h1.2.1 h
    have b := h2.2.1 h
    have c := a.2 q h2.1 b.1
    have d := b.2 p h1.1 a.1
    omega
  · have h' : ∀ x, M x → v ≤ x := fun x hx => by by_contra hc; exact h ⟨x, hx, by omega⟩
    have c := h1.2.2 h' q h2.1
    have d := h2.2.2 h' p h1.1
    omega

theorem CircSucc.unique {M : Nat → Prop} {v p q : Nat} (h1 : CircSucc M v p) (h2 : CircSucc M v q) : p = q := by
  by_cases h : ∃ x, M x ∧ v ≤ x
  · have a := h1.2.1 h
    have b := h2.2.1 h
    have c := a.2 q h2.1 b.1
    have d := b.2 p h1.1 a.1
    omega
  · have h' : ∀ x, M x → x < v := fun x hx => by by_contra hc; exact h ⟨x, hx, by omega⟩
    have c := h1.2.2 h' q h2.1
    have d := h2.2.2 h' p h1.1
    omega

/-- a predecessor that survives in a subset is the predecessor there -/
theorem CircPred.sub {M M' : Nat → Prop} {v p : Nat} (h : CircPred M v p) (hs : ∀ q, M' q → M q) (hp : M' p) :
    CircPred M' v p := by
  refine ⟨hp, ?_, ?_⟩
  · rintro ⟨q, hq, hqv⟩
    have := h.2.1 ⟨q, hs q hq, hqv⟩
    exact ⟨this.1, fun q hq => this.2 q (hs q hq)⟩
  · intro hall q hq
    by_cases hx : ∃ q, M q ∧ q < v
    · have := (h.2.1 hx).1
      have := hall p hp; omega
    · exact h.2.2 (fun x hx' => by by_contra hc; exact hx ⟨x, hx', by omega⟩) q (hs q hq)

theorem CircSucc.sub {M M' : Nat → Prop} {v p : Nat} (h : CircSucc M v p) (hs : ∀ q, M' q → M q) (hp : M' p) :
    CircSucc M' v p := by
  refine ⟨hp, ?_, ?_⟩
  · rintro ⟨q, hq, hqv⟩
    have := h.2.1 ⟨q, hs q hq, hqv⟩
    exact ⟨this.1, fun q hq => this.2 q (hs q hq)⟩
  · intro hall q hq
    by_cases hx : ∃ q, M q ∧ v ≤ q
    · have := (h.2.1 hx).1
      have := hall p hp; omega
    · exact h.2.2 (fun x hx' => by by_contra hc; exact hx ⟨x, hx', by omega⟩) q (hs q hq)

theorem bitVector_eq {vals : List Nat} {n : Nat} (hlt : ∀ v ∈ vals, v < n) :
    bitVectorFromInts vals n false = some ((List.range n).map (fun i => decide (i ∈ vals))) := by
  unfold bitVectorFromInts assertC
  rw [if_pos (by rw [List.all_eq_true]; intro v hv; simpa using hlt v hv)]
  simp only [Option.bind_eq_bind, Option.bind_some, Bool.not_false]
  change some _ = some _
  congr 1

/-- number of set bits below a position = number of values below it -/
theorem count_bits {vals : List Nat} (hd : vals.Nodup) {n p : Nat} (hp : p ≤ n) :
    ((((List.range n).map (fun i => decide (i ∈ vals))).take p).count true) = vals.countP (fun a => decide (a < p)) := by
  rw [← List.map_take, List.take_range, Nat.min_eq_left hp, List.count_eq_countP, List.countP_map]
  rw [List.countP_eq_length_filter, List.countP_eq_length_filter]
  apply List.Perm.length_eq
  rw [List.perm_ext_iff_of_nodup (List.nodup_range.filter _) (hd.filter _)]
  intro a
  simp only [List.mem_filter, List.mem_range, Function.comp, beq_iff_eq, decide_eq_true_eq]
  tauto

theorem bits_get {vals : List Nat} {n : Nat} (hlt : ∀ v ∈ vals, v < n) (j : Nat) :
    ((List.range n).map (fun i => decide (i ∈ vals)))[j]? = some true ↔ j ∈ vals := by
  by_cases hj : j < n
  · rw [List.getElem?_map, List.getElem?_range hj]; simp
  · rw [List.getElem?_eq_none (by simp; omega)]
    simp only [reduceCtorEq, false_iff]
    intro h; exact hj (hlt j h)

theorem pred_marks {vals : List Nat} (hd : vals.Nodup) {n : Nat} (hlt : ∀ v ∈ vals, v < n) (hne : vals ≠ []) {v : Nat}
    (hv : v ≤ n) :
    ∃ o k, ∃ hk : k < vals.length,
      circularPredecessor (bvRank ((List.range n).map (fun i => decide (i ∈ vals))))
        (bvSelect ((List.range n).map (fun i => decide (i ∈ vals)))) n v = some (o, vals[k]) ∧
      (sortIndices vals)[o]? = some k ∧ o = vals.countP (fun a => decide (a < vals[k])) ∧ CircPred (· ∈ vals) v vals[k] := by
  set bv := (List.range n).map (fun i => decide (i ∈ vals)) with hbv
  have hl : bv.length = n := by simp [hbv]
  have h1 : true ∈ bv := by
    obtain ⟨a, l, rfl⟩ := List.exists_cons_of_ne_nil hne
    rw [hbv]; exact List.mem_of_getElem? ((bits_get hlt a).2 (by simp))
  obtain ⟨o, p, e1, e2, e3, e4, e5⟩ := c28_circular_predecessor bv v (by omega) h1
  rw [hl] at e1
  have hp : p ∈ vals := (bits_get hlt p).1 e2
  obtain ⟨k, hk, hkp⟩ := List.getElem_of_mem hp
  have ho : o = vals.countP (fun a => decide (a < p)) := by
    rw [← e3, hbv, count_bits hd (Nat.le_of_lt (hlt p hp))]
  refine ⟨o, k, hk, by rw [hkp]; exact e1, ?_, by rw [hkp]; exact ho, ?_⟩
  · have := sortIndices_index hd hk
    rw [List.getD_eq_getElem?_getD, List.getElem?_eq_getElem hk, Option.getD_some, hkp, ← ho] at this
    exact this
  · rw [hkp]
    refine ⟨hp, ?_, ?_⟩
    · rintro ⟨q, hq, hqv⟩
      obtain ⟨a, b⟩ := e4 ⟨q, hqv, (bits_get hlt q).2 hq⟩
      refine ⟨a, fun q hq hqv => ?_⟩
      by_contra hc
      exact b q (by omega) hqv ((bits_get hlt q).2 hq)
    · intro hall q hq
      by_contra hc
      refine e5 ?_ q (by omega) ((bits_get hlt q).2 hq)
      rintro ⟨j, hj, hj2⟩
      have := hall j ((bits_get hlt j).1 hj2); omega

theorem succ_marks {vals : List Nat} (hd : vals.Nodup) {n : Nat} (hlt : ∀ v ∈ vals, v < n) (hne : vals ≠ []) {v : Nat}
    (hv : v ≤ n) :
    ∃ o k, ∃ hk : k < vals.length,
      circularSoftSuccessor (bvRank ((List.range n).map (fun i => decide (i ∈ vals))))
        (bvSelect ((List.range n).map (fun i => decide (i ∈ vals)))) n v = some (o, vals[k]) ∧
      (sortIndices vals)[o]? = some k ∧ o = vals.countP (fun a => decide (a < vals[k])) ∧ CircSucc (· ∈ vals) v vals[k] := by
  set bv := (List.range n).map (fun i => decide (i ∈ vals)) with hbv
  have hl : bv.length = n := by simp [hbv]
  have h1 : true ∈ bv := by
    obtain ⟨a, l, rfl⟩ := List.exists_cons_of_ne_nil hne
    rw [hbv]; exact List.mem_of_getElem? ((bits_get hlt a).2 (by simp))
  obtain ⟨o, p, e1, e2, e3, e4, e5⟩ := c28_circular_soft_successor bv v (by omega) h1
  rw [hl] at e1
  have hp : p ∈ vals := (bits_get hlt p).1 e2
  obtain ⟨k, hk, hkp⟩ := List.getElem_of_mem hp
  have ho : o = vals.countP (fun a => decide (a < p)) := by
    rw [← e3, hbv, count_bits hd (Nat.le_of_lt (hlt p hp))]
  refine ⟨o, k, hk, by rw [hkp]; exact e1, ?_, by rw [hkp]; exact ho, ?_⟩
  · have := sortIndices_index hd hk
    rw [List.getD_eq_getElem?_getD, List.getElem?_eq_getElem hk, Option.getD_some, hkp, ← ho] at this
    exact this
  · rw [hkp]
    refine ⟨hp, ?_, ?_⟩
    · rintro ⟨q, hq, hqv⟩
      obtain ⟨a, b⟩ := e4 ⟨q, hqv, (bits_get hlt q).2 hq⟩
      refine ⟨a, fun q hq hqv => ?_⟩
      by_contra hc
      exact b q hqv (by omega) ((bits_get hlt q).2 hq)
    · intro hall q hq
      by_contra hc
      refine e5 ?_ q (by omega) ((bits_get hlt q).2 hq)
      rintro ⟨j, hj, hj2⟩
      have := hall j ((bits_get hlt j).1 hj2); omega

end Sri
