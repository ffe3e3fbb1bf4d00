/-!
# Specification vocabulary

Independent of the model: what a text, a suffix array and an occurrence are.
The property theorems are stated with these definitions only (plus the API functions of the model).
Characters are natural numbers (bytes are `< 256`); `0` is the terminator.
-/

namespace Sri
set_option autoImplicit false

/-- A prepared text: some characters, none of them `0`, followed by one `0`.
    (The format `constructText` establishes, construct_sdsl.h:20-41.) -/
def IsText (T : List Nat) : Prop := ∃ u : List Nat, T = u ++ [0] ∧ ∀ c ∈ u, c ≠ 0

/-- `sa` is the suffix array of `T`: it lists every text position once, in increasing
    lexicographic order of the suffixes starting there. -/
def IsSA (T sa : List Nat) : Prop :=
  sa.Perm (List.range T.length) ∧ sa.Pairwise (fun p q => T.drop p < T.drop q)

/-- `P` occurs in `T` at position `p`. -/
def OccursAt (P T : List Nat) (p : Nat) : Prop := p + P.length ≤ T.length ∧ (T.drop p).take P.length = P

instance (P T : List Nat) (p : Nat) : Decidable (OccursAt P T p) := by
  unfold OccursAt; infer_instance

/-- All starting positions of `P` in `T`, in increasing order. -/
def occurrences (P T : List Nat) : List Nat :=
  (List.range (T.length + 1)).filter (fun p => decide (OccursAt P T p))

/-- A non-empty pattern over the characters of the text (the terminator excluded). -/
def IsPattern (P T : List Nat) : Prop := P ≠ [] ∧ ∀ c ∈ P, c ∈ T ∧ c ≠ 0

instance (P T : List Nat) : Decidable (IsPattern P T) := by unfold IsPattern; infer_instance

/-- `[a,b)` is exactly the set of suffix-array positions whose suffix starts with `P`. -/
def IsInterval (P T sa : List Nat) (a b : Nat) : Prop :=
  a ≤ b ∧ b ≤ sa.length ∧ ∀ i (h : i < sa.length), OccursAt P T sa[i] ↔ a ≤ i ∧ i < b

/-- Entries `a, a+1, .., b-1` of the suffix array. -/
def saSlice (sa : List Nat) (a b : Nat) : List Nat := (sa.drop a).take (b - a)

/-- The text position before `p`, circularly. -/
def prevPos (T : List Nat) (p : Nat) : Nat := (p + T.length - 1) % T.length

/-- The Burrows-Wheeler transform: the character before each suffix, in suffix-array order. -/
def bwtOf (T sa : List Nat) : List Nat := sa.map (fun p => T.getD (prevPos T p) 0)

/-! ## runs of equal symbols -/

/-- `[a,b)` is a maximal run of the symbol `c` in `xs`. -/
def IsRun (xs : List Nat) (a b c : Nat) : Prop :=
  a < b ∧ b ≤ xs.length ∧ (∀ i, a ≤ i → i < b → xs[i]? = some c) ∧
  (a = 0 ∨ xs[a-1]? ≠ some c) ∧ xs[b]? ≠ some c

/-- A run starts at position `i` (of a non-empty sequence). -/
def runStartsAt (xs : List Nat) (i : Nat) : Bool := i == 0 || xs[i]? != xs[i-1]?

/-- A run ends at position `i` (the last position of the run). -/
def runEndsAt (xs : List Nat) (i : Nat) : Bool := xs[i+1]? != xs[i]?

/-- Number of runs that start before position `i`. -/
def runsBefore (xs : List Nat) (i : Nat) : Nat := ((List.range i).filter (runStartsAt xs)).length

/-- Number of runs of the symbol `c` that start before position `i`. -/
def symbolRunsBefore (xs : List Nat) (c i : Nat) : Nat :=
  ((List.range i).filter (fun j => runStartsAt xs j && xs[j]? == some c)).length

/-! ## sequences of symbols -/

/-- positions of `c` in `xs`, in increasing order -/
def positions (xs : List Nat) (c : Nat) : List Nat := (List.range xs.length).filter (fun i => decide (xs[i]? = some c))

/-- number of symbols of `xs` smaller than `c` -/
def below (xs : List Nat) (c : Nat) : Nat := xs.countP (fun x => decide (x < c))

/-- cumulative counts of a sequence over the symbols `0..s-1`: the array `C` -/
def cumOf (xs : List Nat) (s : Nat) : List Nat := (List.range (s+1)).map (below xs)

/-- `xs` is a sequence over the symbols `0..s-1` in which each of them occurs -/
def Dense (xs : List Nat) (s : Nat) : Prop := (∀ x ∈ xs, x < s) ∧ ∀ c, c < s → c ∈ xs

/-! ## what is claimed of every index type

`count` and `locate` are the two queries of a built index; `none` stands for a fault (out-of-range access, failed assertion, division by
zero, wrap-around, non-termination). -/

/-- Count answers with a half-open range whose width is the number of occurrences. -/
def CountExact (count : List Nat → Option (Nat × Nat)) (T : List Nat) : Prop :=
  ∀ P, IsPattern P T → ∃ a b, count P = some (a, b) ∧ a ≤ b ∧ b - a = (occurrences P T).length

/-- Count answers with the suffix-array interval of the pattern. -/
def CountInterval (count : List Nat → Option (Nat × Nat)) (T sa : List Nat) : Prop :=
  ∀ P, IsPattern P T → ∃ a b, count P = some (a, b) ∧ IsInterval P T sa a b

/-- Locate lists every occurrence exactly once and nothing else. -/
def LocateExact (locate : List Nat → Option (List Nat)) (T : List Nat) : Prop :=
  ∀ P, IsPattern P T → ∃ l, locate P = some l ∧ l.Perm (occurrences P T)

/-- Locate returns as many values as the range of Count is wide. -/
def LocateLength (count : List Nat → Option (Nat × Nat)) (locate : List Nat → Option (List Nat)) (T : List Nat) : Prop :=
  ∀ P, IsPattern P T → ∃ a b l, count P = some (a, b) ∧ locate P = some l ∧ l.length = b - a

/-- Locate lists the suffix-array entries of the range from the last to the first. -/
def LocateDown (count : List Nat → Option (Nat × Nat)) (locate : List Nat → Option (List Nat)) (T sa : List Nat) : Prop :=
  ∀ P, IsPattern P T → ∃ a b, count P = some (a, b) ∧ locate P = some (saSlice sa a b).reverse

/-- Locate lists the suffix-array entries of the range from the first to the last. -/
def LocateUp (count : List Nat → Option (Nat × Nat)) (locate : List Nat → Option (List Nat)) (T sa : List Nat) : Prop :=
  ∀ P, IsPattern P T → ∃ a b, count P = some (a, b) ∧ locate P = some (saSlice sa a b)

/-- A character that is not in the text is answered like the terminator: one occurrence is claimed, at the terminator. -/
def AbsentAnswered (count : List Nat → Option (Nat × Nat)) (locate : List Nat → Option (List Nat)) (T : List Nat) : Prop :=
  ∀ x, x ∉ T → count [x] = some (0, 1) ∧ locate [x] = some [T.length - 1] ∧ occurrences [x] T = []

/-- With an absent character `x` before a suffix `Q` that the text does not start with, no occurrence is reported. -/
def AbsentEmpty (count : List Nat → Option (Nat × Nat)) (T : List Nat) : Prop :=
  ∀ X Q x, x ∉ T → (∀ c ∈ Q, c ∈ T ∧ c ≠ 0) → ¬ OccursAt Q T 0 → ∃ a, count (X ++ x :: Q) = some (a, a)

end Sri
