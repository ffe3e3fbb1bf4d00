import Verif.Model.LF
import Verif.Proofs.PsiText
import Verif.Proofs.PsiSorted
/-! # Proofs for lf.h -/
namespace Sri
set_option autoImplicit false
variable {T sa : List Nat}

theorem LFOnPsi_eq {rankC : Nat → Nat → Option Nat} {C : List Nat} {f l c x y z : Nat} (h1 : rankC c f = some x) (h2 : rankC c l = some y)
    (h3 : C[c]? = some z) : LFOnPsi rankC C (f, l) c = some (z + x, z + y) := by
  simp only [LFOnPsi, lfWith, h1, h2, h3, Option.bind_eq_bind, Option.bind_some]; rfl

/-- the positions between the two ends of an LF step are the images of the positions of the character -/
theorem lf_between (hT : IsText T) (hsa : IsSA T sa) {c f l : Nat} (hl : l ≤ T.length) (i : Nat) :
    (cumC T c + cnt T sa c f ≤ i ∧ i < cumC T c + cnt T sa c l) ↔ ∃ j, f ≤ j ∧ j < l ∧ bwtAt T sa j = c ∧ lfAt T sa j = i := by
  constructor
  · rintro ⟨h1, h2⟩
    obtain ⟨j, h3, h4, h5, h6⟩ := exists_of_count_between (fun j => bwtAt T sa j = c)
      (show Nat.count (fun j => bwtAt T sa j = c) f ≤ i - cumC T c by unfold cnt at h1; omega)
      (show i - cumC T c < Nat.count (fun j => bwtAt T sa j = c) l by unfold cnt at h2; omega)
    refine ⟨j, h3, h4, h5, ?_⟩
    have hf := lf_formula hT hsa (show j < T.length by omega)
    rw [h5, h6] at hf
    omega
  · rintro ⟨j, h3, h4, h5, rfl⟩
    have hf := lf_eq hT hsa (show j < T.length by omega)
    rw [h5] at hf
    rw [hf]
    have h7 := cnt_mono (T := T) (sa := sa) c h3
    have h8 := cnt_mono (T := T) (sa := sa) c (show j + 1 ≤ l by omega)
    rw [cnt_succ, if_pos h5] at h8
    omega

theorem occursAt_single {T : List Nat} {c p : Nat} : OccursAt [c] T p ↔ T[p]? = some c := by
  unfold OccursAt
  simp only [List.length_cons, List.length_nil, Nat.zero_add]
  constructor
  · rintro ⟨h1, h2⟩
    have := congrArg (fun l => l[0]?) h2
    simpa [List.getElem?_take, List.getElem?_drop] using this
  · intro h
    have hp := (List.getElem?_eq_some_iff.1 h).1
    refine ⟨by omega, ?_⟩
    rw [List.drop_eq_getElem_cons hp, List.take_succ_cons, List.take_zero, (List.getElem?_eq_some_iff.1 h).2]

end Sri
