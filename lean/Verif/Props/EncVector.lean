import Verif.Proofs.EncGet
import Verif.Proofs.EncVectorCtor
/-! # C29: elias-delta coding and enc_vector -/
namespace Sri
set_option autoImplicit false

attribute [local irreducible] W64

/-- C29: the code of any 64-bit value, anywhere in a bit stream, is decoded to the value and the position right after the code. -/
theorem c29_code (x : Nat) (hx : x < 2 ^ 64) (pre post : List Bool) :
    eliasDecode (pre ++ eliasEncode x ++ post) pre.length = some (x, pre.length + (eliasEncode x).length) :=
  decode_encode (post := post) (by rw [List.append_assoc, List.drop_left]) (by rw [W64_eq]; exact hx)

example : eliasEncode 5 = [false, true, true, true, false] ∧
    eliasDecode ([true] ++ eliasEncode 5 ++ [false]) 1 = some (5, 6) ∧ eliasDecode (eliasEncode 0) 0 = some (0, 77) := by
  decide +kernel

/-- C29, sequences: the codes of a sequence written one after the other are decoded back one by one, each decode ending where the next
    code starts. -/
theorem c29_sequence (vs : List Nat) (hv : ∀ v ∈ vs, v < 2 ^ 64) (pre post : List Bool) (i : Nat) (hi : i < vs.length) :
    eliasDecode (pre ++ vs.flatMap eliasEncode ++ post) (pre.length + ((vs.take i).flatMap eliasEncode).length) =
      some (vs[i], pre.length + ((vs.take (i+1)).flatMap eliasEncode).length) :=
  decodeSeq vs (by rw [W64_eq]; exact hv) pre post i hi

example : (∀ v ∈ [1, 5, 9, 2 ^ 63], v < 2 ^ 64) ∧ eliasDecode ([1, 5, 9].flatMap eliasEncode) 6 = some (9, 14) := by decide +kernel

/-- C29: `operator[]` of a vector built from any sequence of 64-bit values returns the stored value, at every density the class accepts
    (`static_assert(t_dens > 1)`); increasing order is not needed. Outside the vector it is undefined. -/
theorem c29_get (dens : Nat) (hd : 2 ≤ dens) (vs : List Nat) (hv : ∀ v ∈ vs, v < 2 ^ 64) (i : Nat) :
    (EncVector.build dens vs).get i = vs[i]? := by
  have hr := EncVector.build_rep hd vs
  by_cases hi : i < vs.length
  · rw [hr.get (by rw [W64_eq]; exact hv) hi, List.getElem?_eq_getElem hi]
  · rw [List.getElem?_eq_none (by omega)]
    simp [EncVector.get, assertC, hr.size, hi]

example : 2 ≤ 3 ∧ (∀ v ∈ [7, 3, 3, 2 ^ 64 - 1, 12, 0, 5], v < 2 ^ 64) ∧
    (List.range 8).map (EncVector.build 3 [7, 3, 3, 2 ^ 64 - 1, 12, 0, 5]).get =
      [some 7, some 3, some 3, some (2 ^ 64 - 1), some 12, some 0, some 5, none] := by decide +kernel

/-- C29: the sampled values, read directly by the psi structures, are the values at the multiples of the density; there are
    `⌈size / dens⌉` of them. -/
theorem c29_sample (dens : Nat) (hd : 2 ≤ dens) (vs : List Nat) (i : Nat) :
    (EncVector.build dens vs).sample i = vs[i * dens]? ∧ (EncVector.build dens vs).size = vs.length := by
  have hr := EncVector.build_rep hd vs
  have hde : (EncVector.build dens vs).dens = dens := by dsimp only [EncVector.build]; split <;> rfl
  refine ⟨?_, hr.size⟩
  by_cases hi : i * dens < vs.length
  · have := (hr.sample i (by rw [hde]; exact hi)).1
    rw [hde] at this
    rw [EncVector.sample]
    simp only [assertC, hde, hr.size, hi, decide_true, if_true, Option.bind_eq_bind, Option.bind_some, this]
    rw [List.getD_eq_getElem?_getD, List.getElem?_eq_getElem hi]; rfl
  · rw [List.getElem?_eq_none (by omega)]
    simp [EncVector.sample, assertC, hde, hr.size, hi]

example : (EncVector.build 2 [4, 6, 9, 12, 20]).sample 1 = some 9 ∧ (EncVector.build 2 [4, 6, 9, 12, 20]).sample 3 = none := by
  decide +kernel

/-- C29, the constructor pass by pass: for every sequence, the constructor from a container, whose first pass measures, and whose arrays
    are allocated from the measure (the samples and pointers in cells of a measured width), never writes outside them, loses no bit to
    the width, and makes the vector of the theorems above. -/
theorem c29_container (dens : Nat) (hd : 2 ≤ dens) (vs : List Nat) (hv : ∀ v ∈ vs, v < 2 ^ 64) :
    ∃ E, EncVector.ofContainer dens vs = some E ∧ E = EncVector.build dens vs ∧ E.size = vs.length ∧
      (∀ i, E.get i = vs[i]?) ∧ ∀ i, E.sample i = vs[i * dens]? :=
  ⟨_, EncVector.ofContainer_eq dens vs, rfl, (c29_sample dens hd vs 0).2, fun i => c29_get dens hd vs hv i,
    fun i => (c29_sample dens hd vs i).1⟩

example : EncVector.ofContainer 3 [7, 3, 300, 2, 12, 0, 5] = some (EncVector.build 3 [7, 3, 300, 2, 12, 0, 5]) ∧
    (EncVector.build 3 [7, 3, 300, 2, 12, 0, 5]).get 2 = some 300 := by decide +kernel

/-- C29, the constructor from an int_vector_buffer: the vector answers as the one made from a container, although its last entry (which
    nothing reads) is left at zero. -/
theorem c29_buffer (dens : Nat) (hd : 2 ≤ dens) (vs : List Nat) (hv : ∀ v ∈ vs, v < 2 ^ 64) :
    ∃ E, EncVector.ofBuffer dens vs = some E ∧ E.size = vs.length ∧ E.dens = dens ∧ E.z = (EncVector.build dens vs).z ∧
      (∀ i, E.get i = vs[i]?) ∧ (∀ i, E.sample i = vs[i * dens]?) ∧ (vs ≠ [] → E ≠ EncVector.build dens vs) := by
  obtain ⟨E, h1, hr, hde⟩ := EncVector.buffer_rep hd vs
  have h2 := h1
  rw [EncVector.ofBuffer_eq, Option.some.injEq] at h2
  refine ⟨E, h1, hr.size, hde, by rw [← h2], ?_, ?_, ?_⟩
  · intro i
    by_cases hi : i < vs.length
    · rw [hr.get (by rw [W64_eq]; exact hv) hi, List.getElem?_eq_getElem hi]
    · rw [List.getElem?_eq_none (by omega)]
      simp [EncVector.get, assertC, hr.size, hi]
  · intro i
    by_cases hi : i * dens < vs.length
    · have := (hr.sample i (by rw [hde]; exact hi)).1
      rw [hde] at this
      rw [EncVector.sample]
      simp only [assertC, hde, hr.size, hi, decide_true, if_true, Option.bind_eq_bind, Option.bind_some, this]
      rw [List.getD_eq_getElem?_getD, List.getElem?_eq_getElem hi]; rfl
    · rw [List.getElem?_eq_none (by omega)]
      simp [EncVector.sample, assertC, hde, hr.size, hi]
  · intro hn he
    rw [he] at h2
    have h3 := congrArg (fun E => E.sp.getLast?) h2
    simp only [if_neg hn] at h3
    rw [EncVector.build, if_neg hn, EncVector.buildLoop_eq] at h3
    simp at h3

example : (∃ E, EncVector.ofBuffer 3 [7, 3, 300, 2, 12, 0, 5] = some E ∧ (List.range 8).map E.get =
    [some 7, some 3, some 300, some 2, some 12, some 0, some 5, none]) :=
  ⟨(EncVector.ofBuffer 3 [7, 3, 300, 2, 12, 0, 5]).get (by decide +kernel), by decide +kernel, by decide +kernel⟩

/-- C29, the values between two samples: from a vector made by either constructor, get_inter_sampled_values writes, for sample `i`, the
    difference (modulo 2^64) to the sample of each of the values up to the next sample, or up to the end of the vector. -/
theorem c29_between (dens : Nat) (hd : 2 ≤ dens) (vs : List Nat) (hv : ∀ v ∈ vs, v < 2 ^ 64) (E : EncVector)
    (hE : EncVector.ofContainer dens vs = some E ∨ EncVector.ofBuffer dens vs = some E) (i : Nat) (hi : i * dens < vs.length) :
    E.interSampled i = some (((vs.drop (i * dens)).take dens).map (fun v => (v + 2 ^ 64 - vs[i * dens]) % 2 ^ 64)) := by
  have h : EncRep E vs ∧ E.dens = dens := by
    rcases hE with h | h
    · rw [EncVector.ofContainer_eq, Option.some.injEq] at h
      rw [← h]
      exact ⟨EncVector.build_rep hd vs, by dsimp only [EncVector.build]; split <;> rfl⟩
    · obtain ⟨E', h1, hr, hde⟩ := EncVector.buffer_rep hd vs
      rw [h1, Option.some.injEq] at h
      rw [← h]; exact ⟨hr, hde⟩
  obtain ⟨hr, hde⟩ := h
  rw [hr.inter (by rw [W64_eq]; exact hv) (by rw [hde]; exact hi), hde]
  congr 1
  apply List.ext_getElem
  · simp
  · intro t h1 h2
    simp only [List.length_map, List.length_range] at h1
    simp only [List.getElem_map, List.getElem_range, List.getElem_take, List.getElem_drop]
    rw [List.getD_eq_getElem?_getD, List.getElem?_eq_getElem (show i * dens + t < vs.length by omega), List.getD_eq_getElem?_getD,
      List.getElem?_eq_getElem hi]
    simp only [Option.getD_some, wsub, W64_eq]

example : (∃ E, EncVector.ofBuffer 3 [7, 3, 300, 2, 12, 0, 5] = some E ∧ E.interSampled 1 = some [0, 10, 2 ^ 64 - 2] ∧
    E.interSampled 2 = some [0]) ∧ 2 * 3 < [7, 3, 300, 2, 12, 0, 5].length :=
  ⟨⟨(EncVector.ofBuffer 3 [7, 3, 300, 2, 12, 0, 5]).get (by decide +kernel), by decide +kernel, by decide +kernel⟩, by decide⟩

/-- C29, swap: after swapping two vectors each one answers as the other did. -/
theorem c29_swap (dens : Nat) (hd : 2 ≤ dens) (vs ws : List Nat) (hv : ∀ v ∈ vs, v < 2 ^ 64) (hw : ∀ v ∈ ws, v < 2 ^ 64) (i : Nat) :
    let r := EncVector.swap (EncVector.build dens vs) (EncVector.build dens ws)
    r.1.get i = ws[i]? ∧ r.2.get i = vs[i]? ∧ r.1.sample i = ws[i * dens]? ∧ r.2.sample i = vs[i * dens]? := by
  have hde : ∀ l, (EncVector.build dens l).dens = dens := by intro l; dsimp only [EncVector.build]; split <;> rfl
  have key : ∀ A B : EncVector, A.dens = B.dens → EncVector.swap A B = (B, A) := by
    rintro ⟨d, _, _, _⟩ ⟨d', _, _, _⟩ h
    obtain rfl : d = d' := h
    rfl
  rw [key _ _ ((hde vs).trans (hde ws).symm)]
  exact ⟨c29_get dens hd ws hw i, c29_get dens hd vs hv i, (c29_sample dens hd ws i).1, (c29_sample dens hd vs i).1⟩

example : (EncVector.swap (EncVector.build 2 [4, 6, 9]) (EncVector.build 2 [1, 0])).1.get 1 = some 0 ∧
    (EncVector.swap (EncVector.build 2 [4, 6, 9]) (EncVector.build 2 [1, 0])).2.get 1 = some 6 := by decide +kernel

end Sri
