import Verif.Proofs.Keys
import Verif.Props.Serialize
/-! # C33: items of different rates do not collide -/
namespace Sri
set_option autoImplicit false

/-- **C33**: no name at all, put after the prefixes of two different rates, gives the same key: this covers the items an index loads, the
    intermediate files of its construction and the supports of its bit vectors. -/
theorem c33_prefix (s₁ s₂ : Nat) (hs : s₁ ≠ s₂) (name₁ name₂ : Key) : ratePrefix s₁ ++ name₁ ≠ ratePrefix s₂ ++ name₂ :=
  fun e => hs (ratePrefix_inj e).1

example : ratePrefix 1 ++ "0_bwt".toList ≠ ratePrefix 10 ++ "bwt".toList := c33_prefix 1 10 (by decide) _ _
example : ratePrefix 12 = "12_".toList := by decide

/-- **C33**, for the keys of the index types: an item that depends on the rate has, in the storage and in the cache, a different key at a
    different rate, whatever the index types, and its key is not that of any item that does not depend on the rate. -/
theorem c33_keys (t₁ t₂ : IndexType) (b₁ b₂ : BvKind) (s₁ s₂ : Nat) (w₁ : Write) (_h₁ : w₁ ∈ writes t₁ b₁) (w₂ : Write) (h₂ : w₂ ∈ writes t₂ b₂)
    (hp₁ : (keyName t₁ w₁.slot).1 = true) :
    (s₁ ≠ s₂ → keyOf t₁ (ratePrefix s₁) w₁.slot ++ w₁.part.suffix ≠ keyOf t₂ (ratePrefix s₂) w₂.slot ++ w₂.part.suffix) ∧
    ((keyName t₂ w₂.slot).1 = false →
      keyOf t₁ (ratePrefix s₁) w₁.slot ++ w₁.part.suffix ≠ keyOf t₂ (ratePrefix s₂) w₂.slot ++ w₂.part.suffix) := by
  have free : (keyName t₂ w₂.slot).1 = false →
      keyOf t₁ (ratePrefix s₁) w₁.slot ++ w₁.part.suffix ≠ keyOf t₂ (ratePrefix s₂) w₂.slot ++ w₂.part.suffix :=
    fun hp₂ => rate_ne_free t₁ t₂ b₂ s₁ (ratePrefix s₂) w₁ w₂ h₂ hp₁ hp₂
  refine ⟨fun hs => ?_, free⟩
  cases hp₂ : (keyName t₂ w₂.slot).1 with
  | false => exact free hp₂
  | true =>
    intro e
    unfold keyOf at e
    dsimp only at e
    rw [if_pos hp₁, if_pos hp₂, List.append_assoc, List.append_assoc] at e
    exact hs (ratePrefix_inj e).1

/-- which items depend on the rate: in the subsampled indexes all but the alphabet, the navigation structure and the cumulative counts -/
theorem c33_rate_specific (t : IndexType) (slot : Slot) (ht : t.sampled = true) (h : (keyName t slot).1 = false) :
    slot = .alphabet ∨ slot = .navigate ∨ slot = .runCumulativeCount ∨ (slot = .validMarks ∧ t.withMarks = false) ∨
    (slot = .validAreas ∧ t.withAreas = false) := by
  revert ht h
  cases t <;> cases slot <;> decide

example : (⟨.samples, .self, .ints⟩ : Write) ∈ writes .srIndex .sd ∧ (⟨.samples, .self, .ints⟩ : Write) ∈ writes .srCSA .sd ∧
    (keyName .srIndex .samples).1 = true := by decide +kernel

/-- **C33**, violation, for every text, every subsampled index type and every pair of rates: load(in) stores the items of the rate `s` in the
    stream under the keys of the rate `s₀` that the object was constructed with. An index of rate `s₀` loaded on the same storage, whatever its
    cache holds, reads nothing and has the samples of rate `s`. -/
theorem c33_stream_items_violation {α : Type} (K : Codec α) (hK : K.Faithful) (t : IndexType) (b : BvKind) (ht : t.sampled = true)
    (hb : b = .sd ∨ (t.overPositions && t.withMarks) = false) (T sa : List Nat) (s s₀ : Nat) (C : Cache) (hC : C.HasIndex t b T sa s) :
    ∃ I S I' S' p, partsOf t T sa s = some p ∧ (Object.fresh t b (some s)).loadCache K [] C = some (I, S) ∧
      (Object.fresh t b (some s₀)).loadStream K [] (I.serialize K S) = some (I', S', []) ∧
      ∀ C₀ : Cache, ∃ J, (Object.fresh t b (some s₀)).loadCache K S' C₀ = some (J, S') ∧ J.rate = s₀ ∧
        collect t b J.keys S' = some p ∧ J.queries S' = p.assemble t s₀ := by
  obtain ⟨p, hp, hC⟩ := hC
  obtain ⟨I, S, I', S', h1, h2, h3, -, -, -, -⟩ := stream_any_ctor K hK ht hp hC hb (some s₀) []
  rw [List.append_nil] at h2
  have hwf := (partsOf_ok hp).1
  refine ⟨I, S, I', S', p, hp, h1, h2, fun C₀ => ?_⟩
  have hpre : (Object.fresh t b (some s₀)).pre = ratePrefix s₀ := rfl
  rw [hpre] at h3
  refine ⟨{ Object.fresh t b (some s₀) with keys := keyOf t (ratePrefix s₀) }, ?_, rfl, h3.collect hwf, ?_⟩
  · have h := runAll_old (K := K) hwf h3 (.cache C₀)
    unfold accesses at h
    unfold Object.loadCache Object.loadInner
    rw [show (Object.fresh t b (some s₀)).type = t from rfl, show (Object.fresh t b (some s₀)).bv = b from rfl, hpre]
    simp only [h, Option.bind_eq_bind, Option.bind_some, Option.pure_def]
    rfl
  · exact queries_full (I := { Object.fresh t b (some s₀) with keys := keyOf t (ratePrefix s₀) }) hwf rfl h3

-- its hypotheses are met
example : ∃ I S I' S' p, partsOf .srIndex exText exSA 5 = some p ∧
      (Object.fresh .srIndex .sd (some 5)).loadCache tokenCodec [] (indexCache .srIndex .sd exText exSA 5) = some (I, S) ∧
      (Object.fresh .srIndex .sd (some 2)).loadStream tokenCodec [] (I.serialize tokenCodec S) = some (I', S', []) ∧
      ∀ C₀ : Cache, ∃ J, (Object.fresh .srIndex .sd (some 2)).loadCache tokenCodec S' C₀ = some (J, S') ∧ J.rate = 2 ∧
        collect .srIndex .sd J.keys S' = some p ∧ J.queries S' = p.assemble .srIndex 2 :=
  c33_stream_items_violation tokenCodec tokenCodec_faithful .srIndex .sd (by decide) (Or.inl rfl) exText exSA 5 2 _
    ⟨(partsOf .srIndex exText exSA 5).get (by decide +kernel), by simp, by decide +kernel⟩

/-- `Locate` of an index of rate 2 loaded from the cache after another object of rate 2 on the same storage has read the stream of an index of
    rate `s`: load(in) replaces the rate of the object but not the prefix of its keys -/
def afterForeignStream (t : IndexType) (T sa : List Nat) (s : Nat) (P : List Nat) : Option (List Nat) := do
  let (I, S) ← (Object.fresh t .sd (some s)).loadCache tokenCodec [] (indexCache t .sd T sa s)
  let (_, S', _) ← (Object.fresh t .sd (some 2)).loadStream tokenCodec [] (I.serialize tokenCodec S)
  let (J, S'') ← (Object.fresh t .sd (some 2)).loadCache tokenCodec S' (indexCache t .sd T sa 2)
  let q ← J.queries S''
  q.locate P

/-- **C33**, what the violation does to the answers: an index of the other rate on the same storage
    answers Locate with a position where the pattern does not occur. -/
theorem c33_stream_violation :
    afterForeignStream .srIndex exText exSA 2 [1] = some [0, 3, 8, 6] ∧ afterForeignStream .srIndex exText exSA 5 [1] = some [0, 3, 8, 1] ∧
    afterForeignStream .srCSA exText exSA 2 [2] = some [7, 9, 4, 1] ∧ afterForeignStream .srCSA exText exSA 5 [2] = some [7, 2, 11, 6] := by
  decide +kernel

end Sri
