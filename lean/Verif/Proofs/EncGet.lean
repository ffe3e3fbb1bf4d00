import Verif.Proofs.EncVector
import Mathlib.Data.Nat.ModEq
/-! # enc_vector: random access -/
namespace Sri
set_option autoImplicit false

attribute [local irreducible] eliasEncode W64 wsub

theorem wsub_add {a b : Nat} (ha : a < W64) (hb : b < W64) : (b + wsub a b) % W64 = a := by
  unfold wsub
  rw [Nat.add_mod_mod, show b + (a + W64 - b) = a + W64 by omega, Nat.add_mod_right, Nat.mod_eq_of_lt ha]

theorem prefixSum_spec {E : EncVector} {vs : List Nat} (h : EncRep E vs) (hv : ∀ v ∈ vs, v < W64) (m : Nat) :
    ∀ j, j + m < vs.length → (∀ i, j < i → i ≤ j + m → i % E.dens ≠ 0) →
      ∃ s, EncVector.prefixSum E.z (eoff E.dens vs (j+1)) m = some s ∧ (vs.getD j 0 + s) % W64 = vs.getD (j+m) 0 := by
  have hlt : ∀ i, i < vs.length → vs.getD i 0 < W64 := by
    intro i hi
    rw [List.getD_eq_getElem?_getD, List.getElem?_eq_getElem hi]
    exact hv _ (List.getElem_mem hi)
  induction m with
  | zero =>
    intro j hj _
    exact ⟨0, rfl, by rw [Nat.add_zero, Nat.add_zero, Nat.mod_eq_of_lt (hlt j (by omega))]⟩
  | succ m ih =>
    intro j hj hno
    obtain ⟨s, e1, e2⟩ := ih (j+1) (by omega) (fun i h1 h2 => hno i (by omega) (by omega))
    refine ⟨(edelta vs (j+1) + s) % W64, ?_, ?_⟩
    · rw [EncVector.prefixSum, h.cell (j+1) (by omega) (hno (j+1) (by omega) (by omega))]
      simp only [Option.bind_eq_bind, Option.bind_some, e1, Option.pure_def]
    · rw [Nat.add_mod_mod, ← Nat.add_assoc, ← Nat.mod_add_mod, edelta, Nat.add_sub_cancel,
        wsub_add (hlt _ (by omega)) (hlt _ (by omega)), e2]
      congr 1; omega

theorem EncRep.get {E : EncVector} {vs : List Nat} (h : EncRep E vs) (hv : ∀ v ∈ vs, v < W64) {i : Nat} (hi : i < vs.length) :
    E.get i = some vs[i] := by
  have hd := h.dens
  have hm := Nat.div_add_mod i E.dens
  have hml := Nat.mod_lt i (show 0 < E.dens by omega)
  rw [Nat.mul_comm] at hm
  obtain ⟨s1, s2⟩ := h.sample (i / E.dens) (by omega)
  obtain ⟨s, e1, e2⟩ := prefixSum_spec h hv (i % E.dens) (i / E.dens * E.dens) (by omega) (by
    intro x h1 h2 h3
    obtain ⟨q, hq⟩ := Nat.dvd_of_mod_eq_zero h3
    rw [hq, Nat.mul_comm E.dens q] at h1 h2
    have a1 := Nat.lt_of_mul_lt_mul_right h1
    have : (i / E.dens + 1) * E.dens ≤ q * E.dens := Nat.mul_le_mul_right _ (by omega)
    rw [Nat.add_mul, Nat.one_mul] at this
    omega)
  have e3 : eoff E.dens vs (i / E.dens * E.dens + 1) = eoff E.dens vs (i / E.dens * E.dens) := by
    rw [eoff, if_pos (Nat.mul_mod_left _ _)]; rfl
  unfold EncVector.get
  rw [e3] at e1
  simp only [assertC, h.size, hi, decide_true, if_true, Option.bind_eq_bind, Option.bind_some, s1, s2, Option.pure_def]
  rw [show i - E.dens * (i / E.dens) = i % E.dens by rw [Nat.mul_comm]; omega, e1, Option.bind_some, e2]
  rw [hm, List.getD_eq_getElem?_getD, List.getElem?_eq_getElem hi]; rfl

/-- the codes of a sequence, one after the other, are decoded back one by one -/
theorem decodeSeq (vs : List Nat) (hv : ∀ v ∈ vs, v < W64) (pre post : List Bool) (i : Nat) (hi : i < vs.length) :
    eliasDecode (pre ++ vs.flatMap eliasEncode ++ post) (pre.length + ((vs.take i).flatMap eliasEncode).length) =
      some (vs[i], pre.length + ((vs.take (i+1)).flatMap eliasEncode).length) := by
  have h1 : vs = vs.take i ++ vs[i] :: vs.drop (i+1) := by rw [← List.drop_eq_getElem_cons hi, List.take_append_drop]
  have h2 : (pre ++ vs.flatMap eliasEncode ++ post).drop (pre.length + ((vs.take i).flatMap eliasEncode).length) =
      eliasEncode vs[i] ++ ((vs.drop (i+1)).flatMap eliasEncode ++ post) := by
    have h3 : vs.flatMap eliasEncode = (vs.take i).flatMap eliasEncode ++ (eliasEncode vs[i] ++ (vs.drop (i+1)).flatMap eliasEncode) := by
      conv_lhs => rw [h1]
      rw [List.flatMap_append, List.flatMap_cons]
    have h4 : pre ++ vs.flatMap eliasEncode ++ post =
        (pre ++ (vs.take i).flatMap eliasEncode) ++ (eliasEncode vs[i] ++ ((vs.drop (i+1)).flatMap eliasEncode ++ post)) := by
      rw [h3]; simp only [List.append_assoc]
    rw [h4, ← List.length_append, List.drop_left]
  rw [decode_encode h2 (hv _ (List.getElem_mem hi)), List.take_succ_eq_append_getElem hi, List.flatMap_append, List.length_append,
    Nat.add_assoc]
  simp

end Sri
