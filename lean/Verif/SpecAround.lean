import Verif.Spec
/-! # Specification vocabulary: patterns read around the end of the text -/
namespace Sri
set_option autoImplicit false

/-- The pattern with the terminator in place of every character that is not in the text. -/
def asLookedUp (P T : List Nat) : List Nat := P.map (fun c => if c ∈ T then c else 0)

/-- `P` is read at position `p` of `T` when the text is read as a circle: after its last character (the terminator) comes its first. -/
def OccursAround (P T : List Nat) (p : Nat) : Prop := ∀ j, j < P.length → P[j]? = T[(p + j) % T.length]?

instance (P T : List Nat) (p : Nat) : Decidable (OccursAround P T p) := by unfold OccursAround; infer_instance

/-- What the queries answer for **every** pattern over all characters, in the text or not. Count: the suffix-array interval of the
    positions at which the looked-up pattern is read around the end of the text. Locate (pattern not empty, and not longer
    than the text or without occurrence): the suffix-array entries of that interval, in the order `order`. -/
def AnswersAround (count : List Nat → Option (Nat × Nat)) (locate : List Nat → Option (List Nat)) (T sa : List Nat)
    (order : List Nat → List Nat) : Prop :=
  ∀ P, ∃ a b, count P = some (a, b) ∧ a ≤ b ∧ b ≤ sa.length ∧
    (∀ i (h : i < sa.length), OccursAround (asLookedUp P T) T sa[i] ↔ a ≤ i ∧ i < b) ∧
    (P ≠ [] → P.length ≤ T.length ∨ a = b → locate P = some (order (saSlice sa a b)))

/-- A pattern with an absent character is answered with no occurrence, except when it is read around the end of the text with the
    terminator in place of its absent characters; then one occurrence is claimed, which does not exist. -/
def AbsentExactly (count : List Nat → Option (Nat × Nat)) (locate : List Nat → Option (List Nat)) (T : List Nat) : Prop :=
  ∀ P, (∃ c ∈ P, c ∉ T) → occurrences P T = [] ∧
    ((∀ p, p < T.length → ¬ OccursAround (asLookedUp P T) T p) → (∃ a, count P = some (a, a)) ∧ locate P = some []) ∧
    (∀ p, p < T.length → OccursAround (asLookedUp P T) T p → (∃ a, count P = some (a, a + 1)) ∧
      (P.length ≤ T.length → locate P = some [p]))

end Sri
