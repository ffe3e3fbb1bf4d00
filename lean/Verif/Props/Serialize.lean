import Verif.Proofs.ObjectLoad
import Verif.Proofs.StreamStuck
import Verif.Props.AllIndexes
/-! # C30, C31: serialize and load -/
namespace Sri
set_option autoImplicit false

/-! ## A concrete codec

A stream of tokens, one per item: enough to show that `Codec.Faithful` can be met, and to exhibit what goes wrong when items are read in
another order than they were written. -/

inductive Token where
  | item (x : Item)
  | size (s : Nat)
deriving DecidableEq, Repr

def tokenCodec : Codec Token where
  enc := fun x =>
    match x with
    | .sdRank _ => []
    | .sdSelect _ => []
    | x => [.item x.unbound]
  dec := fun ty l =>
    match ty, l with
    | .sdRank, l => some (.sdRank none, l)
    | .sdSelect, l => some (.sdSelect none, l)
    | ty, .item x :: l => if x.type = ty then some (x, l) else none
    | _, _ => none
  encSize := fun s => [.size s]
  decSize := fun l =>
    match l with
    | .size s :: l => some (s, l)
    | _ => none

theorem tokenCodec_faithful : tokenCodec.Faithful where
  item := by intro x rest _; cases x <;> simp [tokenCodec, Item.type, Item.unbound]
  size := by intro s rest; rfl
  sdRank := fun _ => rfl
  sdSelect := fun _ => rfl

theorem tokenCodec_typed : tokenCodec.Typed := by
  intro x ty rest h1 h2 h3
  cases ty <;> first | (cases h3; done) | (cases x <;> first | (cases h2; done) | (exact absurd rfl h1) | rfl)

/-! ## C30 -/

/-- the object is what some load returned, from whatever source and on whatever storage -/
def Object.Loaded (I : Object) : Prop :=
  ∃ (α : Type) (K : Codec α) (I₀ : Object) (st st' : LoadState α), I₀.loadInner K st = some (I, st')

theorem Object.Loaded.keys {I : Object} (h : I.Loaded) : I.keys = keyOf I.type I.pre := by
  obtain ⟨α, K, I₀, st, st', h⟩ := h
  unfold Object.loadInner at h
  simp only [Option.bind_eq_bind, Option.bind_eq_some_iff, Option.pure_def, Option.some.injEq, Prod.mk.injEq] at h
  obtain ⟨st1, -, rfl, -⟩ := h
  rfl

theorem loadCache_loaded {α : Type} {K : Codec α} {I I' : Object} {S S' : Storage} {C : Cache} (h : I.loadCache K S C = some (I', S')) :
    I'.Loaded := by
  unfold Object.loadCache at h
  simp only [Option.bind_eq_bind, Option.bind_eq_some_iff, Option.pure_def, Option.some.injEq, Prod.mk.injEq] at h
  obtain ⟨⟨I1, st⟩, h, rfl, -⟩ := h
  exact ⟨α, K, I, _, st, h⟩

/-- the fresh object whose load(in) is meant to restore an index of rate `s`: when the stream holds the rate any constructor will do -/
def RestoresRate (t : IndexType) (s : Nat) (ctor : Option Nat) : Prop :=
  t.rateInStream = true ∨ t.sampled = false ∨ ctor = some s

theorem assemble_rate (p : Parts) (t : IndexType) (h : t.sampled = false) (s s' : Nat) : p.assemble t s = p.assemble t s' := by
  cases t <;> first | (cases h; done) | rfl

/-- loading, on a storage without items under the keys of the new object, what an index wrote -/
theorem stream_restores {α : Type} {K : Codec α} {V : Item → Prop} (hK : K.FaithfulOn V) {I : Object} (hI : I.Loaded) {S : Storage}
    (hV : ∀ k x, S.find k = some x → V x) {q : Queries} (hq : I.queries S = some q) (ctor : Option Nat) (hr : RestoresRate I.type I.rate ctor)
    (hb : I.bv = .sd ∨ (I.type.overPositions && I.type.withMarks) = false) {S₀ : Storage}
    (hS : ∀ w ∈ writes I.type I.bv, S₀.find (w.key (keyOf I.type (Object.fresh I.type I.bv ctor).pre)) = none) (rest : List α) :
    ∃ I' S', (Object.fresh I.type I.bv ctor).loadStream K S₀ (I.serialize K S ++ rest) = some (I', S', rest) ∧ I'.Loaded ∧ S₀.Le S' ∧
      I'.queries S' = some q := by
  have hk := hI.keys
  obtain ⟨p, hp, hq⟩ : ∃ p, collect I.type I.bv I.keys S = some p ∧ p.assemble I.type I.rate = some q := by
    unfold Object.queries at hq
    simp only [Option.bind_eq_bind, Option.bind_eq_some_iff] at hq
    exact hq
  rw [hk] at hp
  have hwf := (collect_items hp).1
  have hfull := collect_full hp
  rw [serialize_full hwf hk hfull, List.append_assoc]
  have ht : ∀ c, (Object.fresh I.type I.bv c).type = I.type := fun c => by cases c <;> rfl
  have hbv : ∀ c, (Object.fresh I.type I.bv c).bv = I.bv := fun c => by cases c <;> rfl
  have main : ∀ J : Object, J.type = I.type → J.bv = I.bv → J.pre = (Object.fresh I.type I.bv ctor).pre →
      ∃ S', J.loadInner K { storage := S₀, source := .stream ((writes I.type I.bv).flatMap (fun w => K.enc (itemOf I.bv p w)) ++ rest) } =
        some ({ J with keys := keyOf I.type J.pre }, { storage := S', source := .stream rest }) ∧ S₀.Le S' ∧
        Object.queries { J with keys := keyOf I.type J.pre } S' = p.assemble I.type J.rate := by
    intro J h1 h2 h3
    have := loadInner_stream hK (I := J) (p := p) (by rw [h1]; exact hwf) (by rw [h1, h2]; exact fun w hw => hV _ _ (hfull w hw)) (by rw [h1, h2]; exact hb) (S := S₀) (by rw [h1, h2, h3]; exact hS) rest
    rw [h1, h2] at this
    obtain ⟨S', e1, e2, e3⟩ := this
    refine ⟨S', by rw [e1, h1, h2], e2, ?_⟩
    have := queries_full (I := { J with keys := keyOf I.type J.pre }) (p := p) (S := S') (by rw [← h1] at hwf; exact hwf) (by dsimp only; rw [h1])
      (by dsimp only; rw [h1, h2]; exact e3)
    rw [this]; dsimp only; rw [h1]
  have aux : ∀ J : Object, J.type = I.type → J.bv = I.bv → J.pre = (Object.fresh I.type I.bv ctor).pre →
      (I.type.rateInStream = false → p.assemble I.type J.rate = some q) →
      ∃ I' S', J.loadStream K S₀ ((if I.type.rateInStream then K.encSize I.rate else []) ++
        ((writes I.type I.bv).flatMap (fun w => K.enc (itemOf I.bv p w)) ++ rest)) = some (I', S', rest) ∧ I'.Loaded ∧ S₀.Le S' ∧
        I'.queries S' = some q := by
    intro J h1 h2 h3 h4
    have h0 : J.type.rateInStream = I.type.rateInStream := by rw [h1]
    unfold Object.loadStream
    rw [h0]
    cases hrate : I.type.rateInStream with
    | true =>
      obtain ⟨S', e1, e2, e3⟩ := main { J with rate := I.rate } h1 h2 h3
      refine ⟨_, S', ?_, ⟨α, K, _, _, _, e1⟩, e2, e3.trans hq⟩
      simp only [if_true, hK.size, Option.bind_eq_bind, Option.bind_some, Option.pure_def]
      rw [e1]; rfl
    | false =>
      obtain ⟨S', e1, e2, e3⟩ := main J h1 h2 h3
      refine ⟨_, S', ?_, ⟨α, K, _, _, _, e1⟩, e2, e3.trans (h4 hrate)⟩
      simp only [Bool.false_eq_true, if_false, List.nil_append, e1, Option.bind_eq_bind, Option.bind_some, Option.pure_def]
  refine aux _ (ht ctor) (hbv ctor) rfl ?_
  intro hrate
  rw [← hq]
  rcases hr with h | h | h
  · rw [hrate] at h; cases h
  · exact assemble_rate p _ h _ _
  · rw [h]; rfl

/-- **C30** (partial): an index object that was loaded in any way and answers `q` writes a stream from which a fresh object of the same type
    on an empty storage reads exactly what was written, and then answers `q`.
    Missing: the bit vectors of the samples of SrCSAValidMark and SrCSAValidArea over SrCSA must be sd_vectors (`c30_plain_violation`), and the
    classes over psi runs must be constructed with the rate of the written index, which the stream does not hold (`c30_rate_violation`). -/
theorem c30_roundtrip_partial {α : Type} (K : Codec α) (hK : K.Faithful) (I : Object) (hI : I.Loaded) (S : Storage) (q : Queries)
    (hq : I.queries S = some q) (ctor : Option Nat) (hr : RestoresRate I.type I.rate ctor)
    (hb : I.bv = .sd ∨ (I.type.overPositions && I.type.withMarks) = false) (rest : List α) :
    ∃ I' S', (Object.fresh I.type I.bv ctor).loadStream K [] (I.serialize K S ++ rest) = some (I', S', rest) ∧ I'.queries S' = some q := by
  obtain ⟨I', S', h1, -, -, h2⟩ := stream_restores hK hI (fun _ _ _ => trivial) hq ctor hr hb (S₀ := []) (fun _ _ => rfl) rest
  exact ⟨I', S', h1, h2⟩

/-- the constructor call of an index of type `t` at rate `s`: the types without a rate have only the default constructor -/
def rateArg (t : IndexType) (s : Nat) : Option Nat := if t.sampled then some s else none

theorem fresh_pre (t : IndexType) (b : BvKind) (s : Nat) : (Object.fresh t b (rateArg t s)).pre = buildPrefix t s := by
  unfold rateArg buildPrefix; split <;> rfl

theorem fresh_type (t : IndexType) (b : BvKind) (c : Option Nat) : (Object.fresh t b c).type = t := by cases c <;> rfl
theorem fresh_bv (t : IndexType) (b : BvKind) (c : Option Nat) : (Object.fresh t b c).bv = b := by cases c <;> rfl

/-- a cache with the files that `construct` writes for an index -/
def Cache.HasIndex (C : Cache) (t : IndexType) (b : BvKind) (T sa : List Nat) (s : Nat) : Prop :=
  ∃ p, partsOf t T sa s = some p ∧ ∀ f ∈ indexFiles t b s p, C f.1.1 f.1.2 = some f.2

theorem assemble_arg (p : Parts) (t : IndexType) (b : BvKind) (s : Nat) :
    p.assemble t (Object.fresh t b (rateArg t s)).rate = p.assemble t s := by
  cases h : t.sampled with
  | true => unfold rateArg; rw [h, if_pos rfl]; rfl
  | false => exact assemble_rate p t h _ _

/-- loading a constructed index on a storage whose items, if any, are its own -/
theorem load_constructed {α : Type} (K : Codec α) {t : IndexType} {b : BvKind} {T sa : List Nat} {s : Nat} {p : Parts}
    (hp : partsOf t T sa s = some p) {C : Cache} (hC : ∀ f ∈ indexFiles t b s p, C f.1.1 f.1.2 = some f.2) {S : Storage}
    (hS : Consistent (writes t b) (keyOf t (buildPrefix t s)) (itemOf b p) S) :
    ∃ I' S', (Object.fresh t b (rateArg t s)).loadCache K S C = some (I', S') ∧ S.Le S' ∧ I'.queries S' = buildIndex t T sa s ∧
      I'.type = t ∧ I'.bv = b ∧ (∀ S'', S'.Le S'' → I'.queries S'' = buildIndex t T sa s) ∧
      Added (writes t b) (keyOf t (buildPrefix t s)) (itemOf b p) S S' ∧ (t.sampled = true → I'.rate = s) ∧ I'.pre = buildPrefix t s := by
  obtain ⟨hwf, has⟩ := partsOf_ok hp
  have hH := holds_of_files hC
  have aux : ∀ J : Object, J.type = t → J.bv = b → J.pre = buildPrefix t s → p.assemble t J.rate = buildIndex t T sa s →
      (t.sampled = true → J.rate = s) →
      ∃ I' S', J.loadCache K S C = some (I', S') ∧ S.Le S' ∧ I'.queries S' = buildIndex t T sa s ∧
      I'.type = t ∧ I'.bv = b ∧ (∀ S'', S'.Le S'' → I'.queries S'' = buildIndex t T sa s) ∧
      Added (writes t b) (keyOf t (buildPrefix t s)) (itemOf b p) S S' ∧ (t.sampled = true → I'.rate = s) ∧ I'.pre = buildPrefix t s := by
    intro J h1 h2 h3 h4 h5
    rw [← h3] at hH hS ⊢
    subst h1; subst h2
    obtain ⟨S', e1, e2, e3, e4⟩ := loadCache_holds (K := K) (I := J) hwf hH hS
    have hq : ∀ S'', S'.Le S'' → Object.queries { J with keys := keyOf J.type J.pre } S'' = buildIndex J.type T sa s := by
      intro S'' hle
      exact (queries_full (I := { J with keys := keyOf J.type J.pre }) (p := p) (S := S'') hwf rfl (e3.le hle)).trans h4
    exact ⟨{ J with keys := keyOf J.type J.pre }, S', e1, e2, hq S' (Storage.Le.refl _), rfl, rfl, hq, e4, h5, rfl⟩
  refine aux _ (fresh_type ..) (fresh_bv ..) (fresh_pre ..) (by rw [assemble_arg, has]) ?_
  intro h
  simp [rateArg, h, Object.fresh]

/-- **C30** (partial), for constructed indexes: for every index type, text and rate, `load(config)` of the constructed index gives an object
    with exact answers, and its stream, read by a fresh object constructed with the same rate, gives the same answers. With the default
    template arguments nothing is excluded. -/
theorem c30_constructed_partial {α : Type} (K : Codec α) (hK : K.Faithful) (t : IndexType) (b : BvKind) (T sa : List Nat) (hT : IsText T)
    (hsa : IsSA T sa) (hn : T.length < 2^64) (s : Nat) (C : Cache) (hC : C.HasIndex t b T sa s)
    (hb : b = .sd ∨ (t.overPositions && t.withMarks) = false) (rest : List α) :
    ∃ q I S I' S', Exact q.count q.locate T sa (if t.backward then List.reverse else id) ∧
      (Object.fresh t b (rateArg t s)).loadCache K [] C = some (I, S) ∧ I.queries S = some q ∧
      (Object.fresh t b (rateArg t s)).loadStream K [] (I.serialize K S ++ rest) = some (I', S', rest) ∧ I'.queries S' = some q := by
  obtain ⟨p, hp, hC⟩ := hC
  obtain ⟨q, hq, he⟩ := buildIndex_exact t hT hsa hn s
  obtain ⟨I, S, h1, -, h2, h3, h4, -, -, h5, -⟩ := load_constructed K hp hC (S := []) (fun _ _ => Or.inl rfl)
  rw [hq] at h2
  subst h3; subst h4
  obtain ⟨I', S', h6, h7⟩ := c30_roundtrip_partial K hK I (loadCache_loaded h1) S q h2 (rateArg I.type s)
    (by cases h : I.type.sampled with
        | true => right; right; rw [h5 h, rateArg, h, if_pos rfl]
        | false => right; left; exact h) hb rest
  exact ⟨q, I, S, I', S', he, h1, h2, h6, h7⟩

/-- a cache with the given files -/
def Cache.ofFiles (l : List ((Key × Option ItemType) × Item)) : Cache := fun k h => l.lookup (k, h)

/-- the cache after the construction of one index -/
def indexCache (t : IndexType) (b : BvKind) (T sa : List Nat) (s : Nat) : Cache :=
  Cache.ofFiles (((partsOf t T sa s).map (indexFiles t b s)).getD [])

-- the hypotheses of the two theorems above are met
example : (indexCache .srCSAValidArea .sd exText exSA 2).HasIndex .srCSAValidArea .sd exText exSA 2 := by
  refine ⟨(partsOf .srCSAValidArea exText exSA 2).get (by decide +kernel), by simp, ?_⟩
  decide +kernel

example : ∃ q I S I' S', Exact q.count q.locate exText exSA (if IndexType.srCSAValidArea.backward then List.reverse else id) ∧
      (Object.fresh .srCSAValidArea .sd (some 2)).loadCache tokenCodec [] (indexCache .srCSAValidArea .sd exText exSA 2) = some (I, S) ∧
      I.queries S = some q ∧
      (Object.fresh .srCSAValidArea .sd (some 2)).loadStream tokenCodec [] (I.serialize tokenCodec S ++ []) = some (I', S', []) ∧
      I'.queries S' = some q :=
  c30_constructed_partial tokenCodec tokenCodec_faithful .srCSAValidArea .sd exText exSA exText_isText exSA_isSA (by decide +kernel) 2 _
    ⟨(partsOf .srCSAValidArea exText exSA 2).get (by decide +kernel), by simp, by decide +kernel⟩ (by decide) []

/-- what `Locate` answers after a round trip through a stream: the index is constructed and loaded at rate `s` and written; a fresh object made
    by the constructor call `ctor` reads it on an empty storage -/
def roundtripLocate (t : IndexType) (b : BvKind) (T sa : List Nat) (s : Nat) (ctor : Option Nat) (P : List Nat) : Option (List Nat) := do
  let (I, S) ← (Object.fresh t b (rateArg t s)).loadCache tokenCodec [] (indexCache t b T sa s)
  let (I', S', _) ← (Object.fresh t b ctor).loadStream tokenCodec [] (I.serialize tokenCodec S)
  let q ← I'.queries S'
  q.locate P

/-- reading the stream of a constructed index with a fresh object made by any constructor call, on an empty storage: the object has exactly the
    items of the written index, under the keys of its own constructor call, and the written rate only if the stream holds it -/
theorem stream_any_ctor {α : Type} (K : Codec α) (hK : K.Faithful) {t : IndexType} {b : BvKind} {T sa : List Nat} {s : Nat} {p : Parts}
    (ht : t.sampled = true) (hp : partsOf t T sa s = some p) {C : Cache} (hC : ∀ f ∈ indexFiles t b s p, C f.1.1 f.1.2 = some f.2)
    (hb : b = .sd ∨ (t.overPositions && t.withMarks) = false) (ctor : Option Nat) (rest : List α) :
    ∃ I S I' S', (Object.fresh t b (some s)).loadCache K [] C = some (I, S) ∧
      (Object.fresh t b ctor).loadStream K [] (I.serialize K S ++ rest) = some (I', S', rest) ∧
      S'.Full t b (Object.fresh t b ctor).pre p ∧ I'.rate = (if t.rateInStream then s else (Object.fresh t b ctor).rate) ∧
      I'.type = t ∧ I'.bv = b ∧ I'.keys = keyOf t (Object.fresh t b ctor).pre := by
  obtain ⟨hwf, -⟩ := partsOf_ok hp
  have hH := holds_of_files hC
  have hpre : buildPrefix t s = ratePrefix s := by unfold buildPrefix; rw [if_pos ht]
  rw [hpre] at hH
  obtain ⟨S, e1, -, e3, -⟩ := loadCache_holds (K := K) (I := Object.fresh t b (some s)) (S := []) hwf hH (fun _ _ => Or.inl rfl)
  have hs := serialize_full (K := K) (I := { Object.fresh t b (some s) with keys := keyOf t (ratePrefix s) }) (p := p) hwf rfl e3
  have main : ∀ J : Object, J.type = t → J.bv = b → J.pre = (Object.fresh t b ctor).pre →
      ∃ S', J.loadInner K { storage := [], source := .stream ((writes t b).flatMap (fun w => K.enc (itemOf b p w)) ++ rest) } =
        some ({ J with keys := keyOf t J.pre }, { storage := S', source := .stream rest }) ∧ S'.Full t b J.pre p := by
    intro J h1 h2 h3
    have := loadInner_stream hK (I := J) (p := p) (by rw [h1]; exact hwf) (fun _ _ => trivial) (by rw [h1, h2]; exact hb) (S := [])
      (fun _ _ => rfl) rest
    rw [h1, h2] at this
    obtain ⟨S', a1, -, a3⟩ := this
    exact ⟨S', by rw [a1, h1, h2], a3⟩
  have aux : ∀ J : Object, J.type = t → J.bv = b → J.pre = (Object.fresh t b ctor).pre →
      ∃ I' S', J.loadStream K [] ((if t.rateInStream then K.encSize s else []) ++ ((writes t b).flatMap (fun w => K.enc (itemOf b p w)) ++ rest)) =
        some (I', S', rest) ∧ S'.Full t b (Object.fresh t b ctor).pre p ∧ I'.rate = (if t.rateInStream then s else J.rate) ∧
        I'.type = t ∧ I'.bv = b ∧ I'.keys = keyOf t (Object.fresh t b ctor).pre := by
    intro J h1 h2 h3
    have h0 : J.type.rateInStream = t.rateInStream := by rw [h1]
    unfold Object.loadStream
    rw [h0]
    cases hrate : t.rateInStream with
    | true =>
      obtain ⟨S', a1, a2⟩ := main { J with rate := s } h1 h2 h3
      refine ⟨{ J with rate := s, keys := keyOf t J.pre }, S', ?_, h3 ▸ a2, rfl, h1, h2, by rw [← h3]⟩
      simp only [if_true, hK.size, Option.bind_eq_bind, Option.bind_some, Option.pure_def]
      rw [a1]; rfl
    | false =>
      obtain ⟨S', a1, a2⟩ := main J h1 h2 h3
      refine ⟨{ J with keys := keyOf t J.pre }, S', ?_, h3 ▸ a2, rfl, h1, h2, by rw [← h3]⟩
      simp only [Bool.false_eq_true, if_false, List.nil_append, a1, Option.bind_eq_bind, Option.bind_some, Option.pure_def]
  obtain ⟨I', S', b1, b2, b3, b4, b5, b6⟩ := aux _ (fresh_type t b ctor) (fresh_bv t b ctor) rfl
  refine ⟨_, S, I', S', e1, ?_, b2, b3, b4, b5, b6⟩
  rw [show ({ Object.fresh t b (some s) with keys := keyOf (Object.fresh t b (some s)).type (Object.fresh t b (some s)).pre } : Object) =
    { Object.fresh t b (some s) with keys := keyOf t (ratePrefix s) } from rfl, hs]
  rw [List.append_assoc]
  exact b1

/-- **C30**, violation 1, for every text and rate: SrCSAWithPsiRun, SRCSAValidMark and SRCSAValidArea do not write their rate. Read by a
    default-constructed object, the index of rate `s` becomes an object whose samples are those of rate `s` and whose rate is 1: it answers
    as the items of rate `s` put together at rate 1. -/
theorem c30_rate_dropped_violation {α : Type} (K : Codec α) (hK : K.Faithful) (t : IndexType) (b : BvKind)
    (ht : t ∈ [IndexType.srCSAWithPsiRun, .psiValidMark, .psiValidArea]) (T sa : List Nat) (s : Nat) (C : Cache) (hC : C.HasIndex t b T sa s)
    (rest : List α) :
    ∃ I S I' S' p, partsOf t T sa s = some p ∧ (Object.fresh t b (some s)).loadCache K [] C = some (I, S) ∧
      (Object.fresh t b none).loadStream K [] (I.serialize K S ++ rest) = some (I', S', rest) ∧
      I'.rate = 1 ∧ collect t b I'.keys S' = some p ∧ I'.queries S' = p.assemble t 1 := by
  obtain ⟨p, hp, hC⟩ := hC
  have hs : t.sampled = true ∧ t.rateInStream = false ∧ (t.overPositions && t.withMarks) = false := by
    simp only [List.mem_cons, List.not_mem_nil, or_false] at ht
    rcases ht with rfl | rfl | rfl <;> decide
  obtain ⟨I, S, I', S', h1, h2, h3, h4, h5, h6, h7⟩ := stream_any_ctor K hK hs.1 hp hC (Or.inr hs.2.2) none rest
  have hwf := (partsOf_ok hp).1
  rw [hs.2.1, if_neg (by simp)] at h4
  have hc : collect t b I'.keys S' = some p := by rw [h7]; exact h3.collect hwf
  refine ⟨I, S, I', S', p, hp, h1, h2, h4, hc, ?_⟩
  unfold Object.queries
  rw [h5, h6, hc]
  simp only [Option.bind_eq_bind, Option.bind_some]
  rw [h4]; rfl

-- its hypotheses are met
example : ∃ I S I' S' p, partsOf .psiValidArea exText exSA 5 = some p ∧
    (Object.fresh .psiValidArea .sd (some 5)).loadCache tokenCodec [] (indexCache .psiValidArea .sd exText exSA 5) = some (I, S) ∧
      (Object.fresh .psiValidArea .sd none).loadStream tokenCodec [] (I.serialize tokenCodec S ++ []) = some (I', S', []) ∧
      I'.rate = 1 ∧ collect .psiValidArea .sd I'.keys S' = some p ∧ I'.queries S' = p.assemble .psiValidArea 1 :=
  c30_rate_dropped_violation tokenCodec tokenCodec_faithful .psiValidArea .sd (by decide) exText exSA 5 _
    ⟨(partsOf .psiValidArea exText exSA 5).get (by decide +kernel), by simp, by decide +kernel⟩ []

/-- **C30**, violation 1, what it does to the answers: read by a default-constructed object,
    the index at rate 5 of a text of 12 symbols answers Locate with positions where the pattern does not occur. -/
theorem c30_rate_violation : ∀ t ∈ [IndexType.srCSAWithPsiRun, .psiValidMark, .psiValidArea],
    roundtripLocate t .sd exText exSA 5 (some 5) [2] = some [7, 9, 4, 1] ∧ roundtripLocate t .sd exText exSA 5 none [2] = some [7, 2, 11, 6] := by
  decide +kernel

-- the other classes do write it
example : ∀ t ∈ [IndexType.srIndex, .srIndexValidMark, .srIndexValidArea, .srCSA, .srCSASlim, .srCSAValidMark, .srCSAValidArea,
    .srCSASlimValidMark, .srCSASlimValidArea],
    roundtripLocate t .sd exText exSA 5 none [2] = roundtripLocate t .sd exText exSA 5 (some 5) [2] := by
  decide +kernel

/-- **C30**, violation 2: SrCSAValidMark and SrCSAValidArea over SrCSA write the select support of the sampled positions before the valid marks
    and read it after them, because SrCSA loads it only when it constructs its functors. With a plain bit vector for the sampled positions
    the support has contents, and no object, however it was constructed, reads the stream of any such index back: for every text and rate. (An item
    of one type is never read as one of another: `Typed`; with the bytes of sdsl the valid marks would be made of the bytes of the support.) -/
theorem c30_plain_violation {α : Type} (K : Codec α) (hK : K.Faithful) (hT : K.Typed) (I : Object) (hI : I.Loaded) (S : Storage) (q : Queries)
    (hq : I.queries S = some q) (hb : I.bv = .plain) (ht : I.type = .srCSAValidMark ∨ I.type = .srCSAValidArea) (ctor : Option Nat) (rest : List α) :
    (Object.fresh I.type I.bv ctor).loadStream K [] (I.serialize K S ++ rest) = none := by
  have hk := hI.keys
  obtain ⟨p, hp, hq⟩ : ∃ p, collect I.type I.bv I.keys S = some p ∧ p.assemble I.type I.rate = some q := by
    unfold Object.queries at hq
    simp only [Option.bind_eq_bind, Option.bind_eq_some_iff] at hq
    exact hq
  rw [hk] at hp
  have hwf := (collect_items hp).1
  have ht' : (I.type.overPositions && I.type.withMarks) = true ∧ I.type.rateInStream = true := by rcases ht with h | h <;> rw [h] <;> decide
  rw [serialize_full hwf hk (collect_full hp), List.append_assoc, ht'.2, if_pos rfl]
  have main : ∀ J : Object, J.type = I.type → J.bv = I.bv →
      J.loadStream K [] (K.encSize I.rate ++ ((writes I.type I.bv).flatMap (fun w => K.enc (itemOf I.bv p w)) ++ rest)) = none := by
    intro J h1 h2
    have h3 : J.type.rateInStream = true := by rw [h1]; exact ht'.2
    have := loadInner_plain hK hT { J with rate := I.rate } (h2.trans hb) (by dsimp only; rw [h1]; exact ht'.1) (p := p) (by dsimp only; rw [h1]; exact hwf)
      (fun _ _ => trivial) (S := []) (fun _ _ => rfl) rest
    dsimp only at this
    unfold Object.loadStream
    rw [h3, if_pos rfl, hK.size, hb, ← h1]
    simp only [Option.bind_eq_bind, Option.bind_some, Option.pure_def]
    rw [this]
    rfl
  exact main _ (by cases ctor <;> rfl) (by cases ctor <;> rfl)

-- an index of a text of 12 symbols at rate 2; with sd_vectors the support is empty and the stream is read
example : ∀ t ∈ [IndexType.srCSAValidMark, .srCSAValidArea],
    roundtripLocate t .plain exText exSA 2 (some 2) [2] = none ∧ roundtripLocate t .sd exText exSA 2 (some 2) [2] = some [7, 9, 4, 1] := by
  decide +kernel
example : (do
    let (I, S) ← (Object.fresh .srCSAValidMark .plain (some 2)).loadCache tokenCodec [] (indexCache .srCSAValidMark .plain exText exSA 2)
    let q ← I.queries S
    q.locate [2]) = some [7, 9, 4, 1] := by decide +kernel

/-! ## C31 -/

theorem runAll_old {α : Type} {K : Codec α} {t : IndexType} {b : BvKind} {pre : Key} {p : Parts} (hp : p.WF t) {S : Storage} (hS : S.Full t b pre p)
    (src : Source α) : LoadState.runAll K (keyOf t pre) (accesses t b) { storage := S, source := src } = some { storage := S, source := src } :=
  runAll_present (coherent_items hp.nav pre) _ (accesses_fit t b p) hS

/-- **C31**, violation: load(in) on an index that already holds items reads, at most, the rate: for every index that answers queries and
    every stream, nothing but the rate is taken from the stream, the storage stays as it was, and the answers still come from the items held
    before. -/
theorem c31_load_ignored {α : Type} (K : Codec α) (I : Object) (hI : I.Loaded) (S : Storage) (p : Parts) (hp : collect I.type I.bv I.keys S = some p)
    (bytes : List α) :
    (I.type.rateInStream = false → ∃ I', I.loadStream K S bytes = some (I', S, bytes) ∧ I'.queries S = I.queries S) ∧
    (I.type.rateInStream = true → ∀ s rest, K.decSize bytes = some (s, rest) →
      ∃ I', I.loadStream K S bytes = some (I', S, rest) ∧ I'.queries S = p.assemble I.type s) := by
  have hk := hI.keys
  have hp' := hp
  rw [hk] at hp'
  have hwf := (collect_items hp').1
  have hfull := collect_full hp'
  have hq : ∀ J : Object, J.type = I.type → J.bv = I.bv → J.pre = I.pre →
      ∀ src : Source α, J.loadInner K { storage := S, source := src } = some ({ J with keys := I.keys }, { storage := S, source := src }) := by
    intro J h1 h2 h3 src
    have h := runAll_old (K := K) hwf hfull src
    unfold accesses at h
    unfold Object.loadInner
    simp only [h1, h2, h3, h, hk, Option.bind_eq_bind, Option.bind_some, Option.pure_def]
  constructor
  · intro hr
    refine ⟨{ I with keys := I.keys }, ?_, rfl⟩
    unfold Object.loadStream
    simp only [hr, Bool.false_eq_true, if_false, hq I rfl rfl rfl, Option.bind_eq_bind, Option.bind_some, Option.pure_def]
  · intro hr s rest hs
    refine ⟨{ I with rate := s, keys := I.keys }, ?_, ?_⟩
    · unfold Object.loadStream
      simp only [hr, if_true, hs, hq { I with rate := s } rfl rfl rfl, Option.bind_eq_bind, Option.bind_some, Option.pure_def]
    · unfold Object.queries
      dsimp only
      rw [hp]; rfl

/-- **C31**, violation for constructed indexes: for every index type, rate and pair of texts, the index of the first text still answers for the
    first text after load(in) of a stream that the index of the second text wrote. -/
theorem c31_violation {α : Type} (K : Codec α) (hK : K.Faithful) (t : IndexType) (b : BvKind) (T₁ sa₁ T₂ sa₂ : List Nat) (h₁ : IsText T₁)
    (hsa₁ : IsSA T₁ sa₁) (hn₁ : T₁.length < 2^64) (s : Nat) (C₁ C₂ : Cache)
    (hC₁ : C₁.HasIndex t b T₁ sa₁ s) (hC₂ : C₂.HasIndex t b T₂ sa₂ s) :
    ∃ I₁ S₁ I₂ S₂ I' rest q, (Object.fresh t b (rateArg t s)).loadCache K [] C₁ = some (I₁, S₁) ∧
      (Object.fresh t b (rateArg t s)).loadCache K [] C₂ = some (I₂, S₂) ∧
      I₁.loadStream K S₁ (I₂.serialize K S₂) = some (I', S₁, rest) ∧
      I'.queries S₁ = some q ∧ Exact q.count q.locate T₁ sa₁ (if t.backward then List.reverse else id) := by
  obtain ⟨p₁, hp₁, hC₁⟩ := hC₁
  obtain ⟨p₂, hp₂, hC₂⟩ := hC₂
  obtain ⟨q, hq, he⟩ := buildIndex_exact t h₁ hsa₁ hn₁ s
  obtain ⟨I₁, S₁, a1, -, a2, a3, a4, -, -, a5, a6⟩ := load_constructed K hp₁ hC₁ (S := []) (fun _ _ => Or.inl rfl)
  obtain ⟨I₂, S₂, b1, -, b2, b3, b4, -, -, b5, b6⟩ := load_constructed K hp₂ hC₂ (S := []) (fun _ _ => Or.inl rfl)
  have hl := loadCache_loaded a1
  have hq' := a2
  rw [hq] at hq'
  obtain ⟨p, hp, hpq⟩ : ∃ p, collect I₁.type I₁.bv I₁.keys S₁ = some p ∧ p.assemble I₁.type I₁.rate = some q := by
    unfold Object.queries at hq'
    simp only [Option.bind_eq_bind, Option.bind_eq_some_iff] at hq'
    exact hq'
  obtain ⟨k1, k2⟩ := c31_load_ignored K I₁ hl S₁ p hp (I₂.serialize K S₂)
  cases hr : t.rateInStream with
  | false =>
    obtain ⟨I', e1, e2⟩ := k1 (by rw [a3]; exact hr)
    exact ⟨I₁, S₁, I₂, S₂, I', _, q, a1, b1, e1, e2.trans hq', he⟩
  | true =>
    have hs : t.sampled = true := by
      unfold IndexType.rateInStream at hr
      simp only [Bool.and_eq_true] at hr
      exact hr.1
    obtain ⟨I', e1, e2⟩ := k2 (by rw [a3]; exact hr) s ((writes I₂.type I₂.bv).flatMap (serializeItem K S₂ I₂.keys)) (by
      unfold Object.serialize
      rw [b3, hr, if_pos rfl, hK.size, b5 hs])
    refine ⟨I₁, S₁, I₂, S₂, I', _, q, a1, b1, e1, ?_, he⟩
    rw [e2, ← hpq, a5 hs]

-- so the answers are not those of the second index: "1" occurs 4 times in the first text and once in the second
example : (occurrences [1] exText).length = 4 ∧ (occurrences [1] [1, 2, 0]).length = 1 := by decide +kernel

/-- **C31** (partial): load(in) gives the answers of the index that wrote the stream when the storage holds no item under the keys of the
    object, whatever else it holds, and leaves those other items as they were.
    Missing: `c31_violation` when it does hold such items. -/
theorem c31_load_partial {α : Type} (K : Codec α) (hK : K.Faithful) (I : Object) (hI : I.Loaded) (S : Storage) (q : Queries)
    (hq : I.queries S = some q) (ctor : Option Nat) (hr : RestoresRate I.type I.rate ctor)
    (hb : I.bv = .sd ∨ (I.type.overPositions && I.type.withMarks) = false) (S₀ : Storage)
    (hS : ∀ w ∈ writes I.type I.bv, S₀.find (keyOf I.type (Object.fresh I.type I.bv ctor).pre w.slot ++ w.part.suffix) = none) (rest : List α) :
    ∃ I' S', (Object.fresh I.type I.bv ctor).loadStream K S₀ (I.serialize K S ++ rest) = some (I', S', rest) ∧ I'.queries S' = some q ∧
      ∀ k x, S₀.find k = some x → S'.find k = some x := by
  obtain ⟨I', S', h1, -, h2, h3⟩ := stream_restores hK hI (fun _ _ _ => trivial) hq ctor hr hb hS rest
  exact ⟨I', S', h1, h3, h2⟩

-- a storage with the items of an index of another rate
example (q : Queries) (I : Object) (S : Storage) (hI : I.Loaded) (ht : I.type = .srIndex) (hb : I.bv = .sd) (hs : I.rate = 2) (hq : I.queries S = some q) :
    ∃ I' S', (Object.fresh I.type I.bv (some 2)).loadStream tokenCodec [("3_bwt_run_last_text_pos".toList, .ints [1])] (I.serialize tokenCodec S ++ []) =
      some (I', S', []) ∧ I'.queries S' = some q ∧ ∀ k x, Storage.find [("3_bwt_run_last_text_pos".toList, .ints [1])] k = some x → S'.find k = some x :=
  c31_load_partial tokenCodec tokenCodec_faithful I hI S q hq (some 2) (Or.inr (Or.inr (by rw [hs]))) (Or.inl hb) _
    (by rw [ht, hb]; decide +kernel) []

end Sri
