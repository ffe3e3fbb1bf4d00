import Verif.Proofs.Text
import Verif.Props.AllIndexes
/-! # C35: text preparation; from the bytes of a file to the answers of every index -/
namespace Sri
set_option autoImplicit false

/-- **C35**: an input without zero bytes is stored followed by one zero, an input that ends in its only zero is stored as it is, and an
    input with any other zero is rejected. -/
theorem c35_construct_text (bytes : List Nat) :
    ((∀ c ∈ bytes, c ≠ 0) → constructText bytes = .stored (bytes ++ [0])) ∧
    (IsText bytes → constructText bytes = .stored bytes) ∧
    ((∃ u v, bytes = u ++ 0 :: v ∧ v ≠ []) → constructText bytes = .innerZero) := by
  refine ⟨fun h => constructText_noZero (fun h0 => h 0 h0 rfl), ?_, ?_⟩
  · rintro ⟨u, rfl, hu⟩
    exact constructText_terminated (fun h0 => hu 0 h0 rfl)
  · rintro ⟨u, v, rfl, hv⟩
    obtain ⟨u', v', e, hu'⟩ := exists_first_zero (l := u ++ 0 :: v) (by simp)
    rw [e]
    refine constructText_inner hu' (fun e' => ?_)
    subst e'
    -- the first zero cannot be the last byte: the zero before `v` comes earlier
    have hl := congrArg List.length e
    have h1 : 0 < v.length := List.length_pos_iff.2 hv
    simp only [List.length_append, List.length_cons, List.length_nil] at hl
    have h2 : (u ++ 0 :: v)[u.length]? = some 0 := by simp
    rw [e, List.getElem?_append_left (by omega)] at h2
    exact hu' (List.mem_of_getElem? h2)

/-- **C35**: whatever is stored is a text in the format the indexes expect, and nothing but that is ever stored. -/
theorem c35_stored_is_text (bytes T : List Nat) (h : constructText bytes = .stored T) :
    IsText T ∧ (T = bytes ∨ T = bytes ++ [0]) := by
  by_cases h0 : 0 ∈ bytes
  · obtain ⟨u, v, rfl, hu⟩ := exists_first_zero h0
    by_cases hv : v = []
    · subst hv
      rw [constructText_terminated hu] at h
      obtain rfl := TextResult.stored.inj h
      exact ⟨⟨u, rfl, fun c hc e => hu (e ▸ hc)⟩, Or.inl rfl⟩
    · rw [constructText_inner hu hv] at h; cases h
  · rw [constructText_noZero h0] at h
    obtain rfl := TextResult.stored.inj h
    exact ⟨⟨bytes, rfl, fun c hc e => h0 (e ▸ hc)⟩, Or.inr rfl⟩

example : constructText [98, 97, 110] = .stored [98, 97, 110, 0] := by decide
example : constructText [98, 97, 110, 0] = .stored [98, 97, 110, 0] := by decide
example : constructText [98, 0, 110, 0] = .innerZero := by decide
example : constructText [] = .stored [0] := by decide

/-- **C35**: preparing a prepared text again changes nothing. -/
theorem c35_idempotent (bytes T : List Nat) (h : constructText bytes = .stored T) : constructText T = .stored T :=
  (c35_construct_text T).2.1 (c35_stored_is_text bytes T h).1

/-- Every text has exactly one suffix array, so the hypothesis `IsSA T sa` of the other theorems can always be met, in one way. -/
theorem suffix_array_exists_unique (T : List Nat) : ∃ sa, IsSA T sa ∧ ∀ sa', IsSA T sa' → sa' = sa :=
  ⟨suffixArray T, suffixArray_isSA T, fun _ h => h.unique (suffixArray_isSA T)⟩

example : suffixArray exText = exSA := by decide

/-- the whole construction: prepare the text, sort its suffixes, build the index. `none` stands for the exception or a fault. -/
def indexFromBytes (t : IndexType) (bytes : List Nat) (s : Nat) : Option Queries :=
  match constructText bytes with
  | .stored T => buildIndex t T (suffixArray T) s
  | .innerZero => none

theorem occurrences_terminated {P b : List Nat} (hP : P ≠ []) (h0 : ∀ c ∈ P, c ≠ 0) : occurrences P (b ++ [0]) = occurrences P b := by
  have hl : 0 < P.length := List.length_pos_iff.2 hP
  have iff : ∀ p, OccursAt P (b ++ [0]) p ↔ OccursAt P b p := by
    intro p
    unfold OccursAt
    constructor
    · rintro ⟨h1, h2⟩
      rw [List.length_append, List.length_singleton] at h1
      by_cases hp : p + P.length ≤ b.length
      · refine ⟨hp, ?_⟩
        rw [List.drop_append_of_le_length (by omega), List.take_append_of_le_length (by rw [List.length_drop]; omega)] at h2
        exact h2
      · exfalso
        have h3 : P[P.length - 1]? = some 0 := by
          rw [← h2, List.getElem?_take_of_lt (by rw [List.length_take, List.length_drop, List.length_append, List.length_singleton]; omega),
            List.getElem?_drop, List.length_take, List.length_drop, List.length_append, List.length_singleton]
          rw [show p + (min P.length (b.length + 1 - p) - 1) = b.length by omega]
          simp
        exact h0 0 (List.mem_of_getElem? h3) rfl
    · rintro ⟨h1, h2⟩
      refine ⟨by rw [List.length_append]; omega, ?_⟩
      rw [List.drop_append_of_le_length (by omega), List.take_append_of_le_length (by rw [List.length_drop]; omega)]
      exact h2
  unfold occurrences
  rw [List.length_append, List.length_singleton, List.range_succ, List.filter_append]
  have hno : ¬ OccursAt P (b ++ [0]) (b.length + 1) := by
    rintro ⟨h1, -⟩
    rw [List.length_append, List.length_singleton] at h1
    omega
  rw [List.filter_singleton, decide_eq_false hno]
  simp only [iff]
  simp

/-- **From bytes to answers**: for every index type, every rate, every byte string without zero bytes and every non-empty pattern made of
    its bytes, construction succeeds, Count returns a range as wide as the number of occurrences of the pattern in the bytes, and Locate
    returns exactly the positions at which it occurs. -/
theorem c01_end_to_end (t : IndexType) (bytes : List Nat) (h0 : ∀ c ∈ bytes, c ≠ 0) (hn : bytes.length + 1 < 2^64) (s : Nat) :
    ∃ q, indexFromBytes t bytes s = some q ∧ ∀ P, P ≠ [] → (∀ c ∈ P, c ∈ bytes) →
      ∃ a b l, q.count P = some (a, b) ∧ q.locate P = some l ∧ a ≤ b ∧ b - a = (occurrences P bytes).length ∧
        l.Perm (occurrences P bytes) := by
  have hT : IsText (bytes ++ [0]) := ⟨bytes, rfl, h0⟩
  obtain ⟨q, hb, he⟩ := buildIndex_exact t hT (suffixArray_isSA _) (by simpa using hn) s
  refine ⟨q, by rw [indexFromBytes, (c35_construct_text bytes).1 h0]; exact hb, fun P hP hPc => ?_⟩
  have hpat : IsPattern P (bytes ++ [0]) := ⟨hP, fun c hc => ⟨by simp [hPc c hc], h0 c (hPc c hc)⟩⟩
  obtain ⟨a, b, hc, hi, hp, hl⟩ := he P hpat
  have ho := occurrences_terminated (b := bytes) hP (fun c hc => h0 c (hPc c hc))
  rw [ho] at hp
  refine ⟨a, b, _, hc, hl, hi.1, ?_, (order_perm _ _).trans hp⟩
  rw [← hp.length_eq, saSlice_length hi.2.1]

-- "abracadabra" and the pattern "abra", with a backward and a forward index
example : (indexFromBytes .srIndexValidArea [97,98,114,97,99,97,100,97,98,114,97] 4).bind (·.locate [97,98,114,97]) = some [0, 7] := by decide +kernel
example : (indexFromBytes .srCSASlimValidMark [97,98,114,97,99,97,100,97,98,114,97] 4).bind (·.locate [97,98,114,97]) = some [7, 0] := by decide +kernel

end Sri
