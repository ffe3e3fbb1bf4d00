import Verif.Model.Copies
import Verif.Props.Streams
/-! # C47: copies do not depend on their source -/
namespace Sri
set_option autoImplicit false

/-! ## The structures -/

/-- **C47**, RLEString. However an RLEString came about (constructed, loaded, copied), its copy works on the same runs with supports of its own, so
    that nothing done to the source later changes its answers. -/
theorem c47_rle_string (k : BvKind) (x : RLEObject) (S : RLEString) (hx : x.view k = some S) : (x.copy k).view k = some S := by
  rw [RLEObject.view_eq_some] at hx ⊢
  obtain ⟨-, -, rfl⟩ := hx
  refine ⟨BVObject.works_copy _ _, ?_, ?_⟩
  · intro y hy
    obtain ⟨z, -, rfl⟩ := List.mem_map.1 hy
    exact BVObject.works_copy _ _
  · simp [RLEObject.copy, BVObject.copy]

-- a copy of a copy of a loaded string
example : ∃ S, RLEString.build [2,2,5,1,1,1,2] 2 = some S ∧ ∃ y,
    RLEObject.load atomPrims .plain ((RLEObject.ofString .plain S).serialize atomPrims .plain ++ []) = some (y, []) ∧
      ((y.copy .plain).copy .plain).view .plain = some S := by
  refine ⟨_, rfl, _, rfl, ?_⟩; decide +kernel

/-- **C47**, sparse vectors, assignment. Whatever becomes of its source (`src`: gone, or with other bits), an assigned vector answers for the bits
    it was assigned. -/
theorem c47_sparse_assign (x : SparseObject) (src : Option (List Bool)) (i : Nat) (hi : i ≤ x.bits.length) :
    x.assign.rankIn src i = bvRank x.bits i ∧
      (∀ k, bvRank x.bits x.bits.length = some k → i < k → x.assign.selectIn src i = bvSelect x.bits (i + 1)) := by
  refine ⟨?_, ?_⟩
  · simp [SparseObject.rankIn, SparseObject.assign, Ptr.target, assertC, hi]
  · intro k hk h
    simp [SparseObject.selectIn, SparseObject.assign, Ptr.target, assertC, hk, h]

example : (SparseObject.ofBools [false, true, true]).assign.rankIn none 2 = some 1 ∧
    (SparseObject.ofBools [false, true, true]).assign.selectIn none 1 = some 2 := by decide +kernel

/-- **C47**, sparse vectors, violation: the copy constructor. The supports of the copy of any non-empty vector are over the vector of the source:
    rank is answered from whatever bits the source holds at that time, and is undefined for every argument when the source is gone. -/
theorem c47_sparse_violation (b : List Bool) (hb : b ≠ []) (i : Nat) (hi : i ≤ b.length) :
    (SparseObject.ofBools b).rankIn none i = bvRank b i ∧
    (∀ b', (SparseObject.ofBools b).copied.rankIn (some b') i = bvRank b' i) ∧
    (SparseObject.ofBools b).copied.rankIn none i = none ∧ (SparseObject.ofBools b).copied.selectIn none i = none := by
  have hl : b.length ≠ 0 := by simpa using hb
  unfold SparseObject.ofBools
  rw [if_neg hl]
  simp [SparseObject.rankIn, SparseObject.selectIn, SparseObject.copied, Ptr.target, Ptr.copied, assertC, hi]

example : (SparseObject.ofBools [false, true, true]).rankIn none 2 = some 1 ∧
    (SparseObject.ofBools [false, true, true]).copied.rankIn (some [true, true, true]) 2 = some 2 ∧
    (SparseObject.ofBools [false, true, true]).copied.rankIn none 2 = none := by decide +kernel

/-- **C47**, PsiCoreRLE and enc_vector: all members are values, so a copy is an equal value (the model has nothing else to say). PsiCoreBV,
    violation: for every psi function, rank in a copy is the rank of the source as long as that is unchanged, and is undefined for every symbol
    and argument once it is gone. -/
theorem c47_psi_bv_violation (k : BvKind) (P : PsiCoreBV) (c i : Nat) :
    (PsiBVObject.ofCore k P).rankIn k none c i = P.rank c i ∧
    (PsiBVObject.ofCore k P).copied.rankIn k (some P.parts) c i = P.rank c i ∧
    (PsiBVObject.ofCore k P).copied.rankIn k none c i = none := by
  unfold PsiBVObject.rankIn PsiBVObject.copied PsiBVObject.ofCore PsiCoreBV.rank
  by_cases h : c < P.parts.length
  · cases k <;> simp [h, Support.over, Support.copied, Ptr.copied, Ptr.target, assertC]
  · cases k <;> simp [h]

example : ((PsiCoreBV.build [0, 1, 3, 5] [3, 0, 4, 1, 2]).map (fun P => ((PsiBVObject.ofCore .sd P).rankIn .sd none 1 4,
    (PsiBVObject.ofCore .sd P).copied.rankIn .sd none 1 4))) = some (some 1, none) := by decide +kernel

/-- **C47**, rle_string. Built from any string of bytes with any block size: move assignment (as in `bwt = rle_string(...)`) keeps the object
    complete. -/
theorem c47_legacy_rle_string (xs : List Nat) (B : Nat) (hB : 1 ≤ B) (hb : ∀ c ∈ xs, c < 256) (s : RleString) (h : RleString.build xs B = some s) :
    (RleObject.ofString s).moveAssigned.view = some s := by
  obtain ⟨hw, hs⟩ := rle_whole hB hb h
  have : (RleObject.ofString s).moveAssigned = RleObject.ofString s := rfl
  rw [this, hw.view, hs]

example : ((RleString.build [2,2,5,1,1,1,2] 2).bind (fun s => (RleObject.ofString s).moveAssigned.view.bind (fun t => t.rank 5 1))) = some 2 := by
  decide +kernel

/-- **C47**, rle_string, violation. The same strings: in a copied or move-constructed object, and in a default-constructed one that was assigned a
    copy, a vector has its supports over the source. With the source gone, rank on the run ends (copy and move constructor), or on the letters
    (copy constructor and assignment) is undefined for every argument. -/
theorem c47_legacy_rle_string_violation (xs : List Nat) (B : Nat) (hB : 1 ≤ B) (hb : ∀ c ∈ xs, c < 256) (s : RleString)
    (h : RleString.build xs B = some s) (x : RleObject) (hx : x = RleObject.ofString s) :
    x.view = some s ∧ x.copied.view = none ∧ x.moveConstructed.view = none ∧ x.assignedToEmpty.view = none ∧
    (∀ i, x.copied.runs.rankIn none i = none) ∧ (∀ i, x.moveConstructed.runs.rankIn none i = none) ∧
    (∀ y ∈ x.copied.perLetter, ∀ i, y.rankIn none i = none) ∧ (∀ y ∈ x.assignedToEmpty.perLetter, ∀ i, y.rankIn none i = none) := by
  obtain ⟨hw, hs⟩ := rle_whole hB hb h
  rw [← hx] at hw hs
  have hc : ∀ y : SparseObject, y.Whole → y.copied.view = none ∧ ∀ i, y.copied.rankIn none i = none := by
    intro y hy
    obtain ⟨u, bits, r, se⟩ := y
    have h1 := hy.rank; have h2 := hy.select
    dsimp only at h1 h2; subst h1; subst h2
    refine ⟨rfl, fun i => ?_⟩
    simp [SparseObject.rankIn, SparseObject.copied, Ptr.copied, Ptr.target, assertC]
  have hp : (x.perLetter.map (·.copied)).mapM (·.view) = none := by
    have hl := hw.len
    cases hq : x.perLetter with
    | nil => rw [hq] at hl; cases hl
    | cons y l =>
      rw [List.map_cons, List.mapM_cons, (hc y (hw.per y (by simp [hq]))).1]; rfl
  have hm : ∀ y ∈ x.perLetter.map (·.copied), ∀ i, y.rankIn none i = none := by
    intro y hy i
    obtain ⟨z, hz, rfl⟩ := List.mem_map.1 hy
    exact (hc z (hw.per z hz)).2 i
  refine ⟨by rw [hw.view, hs], ?_, ?_, ?_, (hc _ hw.runs).2, (hc _ hw.runs).2, hm, hm⟩
  · unfold RleObject.view RleObject.copied
    dsimp only
    rw [(hc _ hw.runs).1]; rfl
  · unfold RleObject.view RleObject.moveConstructed
    dsimp only
    rw [(hc _ hw.runs).1]; rfl
  · unfold RleObject.view RleObject.assignedToEmpty
    dsimp only
    rw [hp, (SparseObject.whole_assign _).view]; rfl

/-! ## Index objects -/

/-- an index object after `load`, alone with its storage at the address `a` -/
def IndexValue.loaded (I : Object) (external : Bool) (a : Nat) : IndexValue := { obj := I, external := external, storage := a, functors := some a }

/-- **C47**, indexes (partial). An index that answers (whatever its type, and however it was loaded) is copied, or moved if its class can be
    moved. The copy answers as the index does while that lives; a copy of an index on an external storage, and the target of a move, answer the
    same after the source has been destroyed. Missing: copies of an index with a storage of its own that outlive it (`c47_index_violation`). -/
theorem c47_index_partial (m : Memory) (x : IndexValue) (q : Queries) (hx : x.queries m = some q) :
    (∀ m' y, x.copy m = (m', y) → y.queries m' = some q ∧ x.queries m' = some q) ∧
    (x.external = true → ∀ m' y, x.copy m = (m', y) → y.queries (x.destroy m') = some q) ∧
    (∀ m' y old, x.move m = (m', y, old) → y.queries m' = some q ∧ y.queries (old.destroy m') = some q) := by
  have happ : ∀ z : Option Storage, x.queries (m ++ [z]) = some q := by
    intro z
    unfold IndexValue.queries at hx ⊢
    simp only [Option.bind_eq_bind, Option.bind_eq_some_iff] at hx ⊢
    obtain ⟨a, h1, S, h2, h3⟩ := hx
    refine ⟨a, h1, S, ?_, h3⟩
    cases ha : m[a]? with
    | none => rw [ha] at h2; cases h2
    | some y =>
      have hlt := (List.getElem?_eq_some_iff.1 ha).1
      rw [List.getElem?_append_left hlt, ha, ← ha]; exact h2
  refine ⟨?_, ?_, ?_⟩
  · intro m' y h
    unfold IndexValue.copy at h
    split at h <;> cases h
    · exact ⟨hx, hx⟩
    · exact ⟨happ _, happ _⟩
  · intro he m' y h
    unfold IndexValue.copy at h
    rw [if_pos he] at h; cases h
    unfold IndexValue.destroy
    rw [if_pos he]; exact hx
  · intro m' y old h
    unfold IndexValue.move at h
    split at h <;> cases h
    · rename_i he
      refine ⟨hx, ?_⟩
      unfold IndexValue.destroy
      rw [if_pos he]; exact hx
    · rename_i he
      refine ⟨happ _, ?_⟩
      unfold IndexValue.destroy
      dsimp only
      rw [if_neg he, List.set_append_right _ _ (Nat.le_refl _)]
      simp only [Nat.sub_self, List.set_cons_zero]
      exact happ _

/-- **C47**, indexes, violation. An index with a storage of its own, of any type and loaded from any files or stream, is copied and destroyed: every
    query of the copy is undefined, although the copy holds a copy of all the items. The classes that declare a destructor (RCSAWithPsiRun, SrCSA and
    its variants) do the same when they are moved. -/
theorem c47_index_violation (m : Memory) (I : Object) (a : Nat) (q : Queries) (hq : (IndexValue.loaded I false a).queries m = some q) :
    ∀ m' y, (IndexValue.loaded I false a).copy m = (m', y) →
      y.queries m' = some q ∧ y.queries ((IndexValue.loaded I false a).destroy m') = none ∧
      ∃ S, m'[y.storage]? = some (some S) ∧ I.queries S = some q := by
  intro m' y h
  simp only [IndexValue.queries, IndexValue.loaded, Option.bind_eq_bind, Option.bind_some, Option.bind_eq_some_iff] at hq
  obtain ⟨S, h1, h2⟩ := hq
  have hm : m[a]? = some (some S) := by
    cases hv : m[a]? with
    | none => rw [hv] at h1; cases h1
    | some z => rw [hv] at h1; exact congrArg some h1
  have hlt := (List.getElem?_eq_some_iff.1 hm).1
  unfold IndexValue.copy at h
  simp only [IndexValue.loaded, Bool.false_eq_true, if_false] at h
  cases h
  refine ⟨?_, ?_, S, ?_, h2⟩
  · simp [IndexValue.queries, List.getElem?_append_left hlt, hm, h2]
  · simp [IndexValue.queries, IndexValue.destroy, IndexValue.loaded, hlt, Nat.lt_succ_of_lt hlt]
  · simp [hm]

-- an r-index of a text, loaded on its own storage: it answers; so does a copy; the copy alone does not
example : ((do
    let (I, S) ← (Object.fresh .rIndex .sd none).loadCache tokenCodec [] (indexCache .rIndex .sd exText exSA 1)
    let x := IndexValue.loaded I false 0
    let (m, y) := x.copy [some S]
    let q ← x.queries [some S]
    let q' ← y.queries m
    return (q.count [1,2], q'.count [1,2], (y.queries (x.destroy m)).isNone)) : Option (Option (Nat × Nat) × Option (Nat × Nat) × Bool)) =
    some (some (1, 5), some (1, 5), true) := by decide +kernel

-- moved, it still answers
example : ((do
    let (I, S) ← (Object.fresh .rIndex .sd none).loadCache tokenCodec [] (indexCache .rIndex .sd exText exSA 1)
    let (m, y, old) := (IndexValue.loaded I false 0).move [some S]
    let q ← y.queries (old.destroy m)
    q.count [1,2]) : Option (Nat × Nat)) = some (1, 5) := by decide +kernel

end Sri
