import Verif.Proofs.Sharing
import Verif.Props.Serialize
import Verif.Props.Keys
/-! # C32, C33, C44: several indexes on one storage -/
namespace Sri
set_option autoImplicit false

section
variable {α : Type} (K : Codec α)

/-- a program that constructs, one after the other, index objects of the given types and rates over one shared storage and loads each of them
    from the cache -/
def loadSequence (b : BvKind) (C : Cache) : List (IndexType × Nat) → Storage → Option (List Object × Storage)
  | [], S => some ([], S)
  | (t, s) :: l, S => do
    let (I, S) ← (Object.fresh t b (rateArg t s)).loadCache K S C
    let (Is, S) ← loadSequence b C l S
    return (I :: Is, S)

/-- every item of the storage belongs to one of the indexes, under its key -/
def Owned (b : BvKind) (T sa : List Nat) (done : List (IndexType × Nat)) (S : Storage) : Prop :=
  ∀ k x, S.find k = some x → ∃ t s p w, (t, s) ∈ done ∧ partsOf t T sa s = some p ∧ w ∈ writes t b ∧
    k = w.key (keyOf t (buildPrefix t s)) ∧ x = itemOf b p w

/-- no two of the types clash -/
def NoClash (l : List IndexType) : Prop := ¬ (.rIndex ∈ l ∧ .rcsaWithBWTRun ∈ l)

theorem noClash_clash {l : List IndexType} (h : NoClash l) {t₁ t₂ : IndexType} (h₁ : t₁ ∈ l) (h₂ : t₂ ∈ l) : clash t₁ t₂ = false := by
  cases hc : clash t₁ t₂ with
  | false => rfl
  | true =>
    unfold clash at hc
    simp only [Bool.or_eq_true, Bool.and_eq_true, decide_eq_true_eq] at hc
    rcases hc with ⟨rfl, rfl⟩ | ⟨rfl, rfl⟩
    · exact absurd ⟨h₁, h₂⟩ h
    · exact absurd ⟨h₂, h₁⟩ h

theorem owned_consistent {b : BvKind} {T sa : List Nat} {done : List (IndexType × Nat)} {S : Storage} (hS : Owned b T sa done S) {t : IndexType} {s : Nat}
    {p : Parts} (hp : partsOf t T sa s = some p) (hc : ∀ t' s', (t', s') ∈ done → clash t' t = false) :
    Consistent (writes t b) (keyOf t (buildPrefix t s)) (itemOf b p) S := by
  intro w hw
  cases h : S.find (w.key (keyOf t (buildPrefix t s))) with
  | none => exact Or.inl rfl
  | some x =>
    right
    obtain ⟨t', s', p', w', hd, hp', hw', e, rfl⟩ := hS _ _ h
    rw [shared_item b (hc t' s' hd) hp' hp hw' hw e.symm]

theorem loadSequence_ok (b : BvKind) {T sa : List Nat} {C : Cache} (types : List IndexType) (hn : NoClash types) :
    ∀ (l : List (IndexType × Nat)) (done : List (IndexType × Nat)) (S : Storage), (∀ x ∈ l, x.1 ∈ types) → (∀ x ∈ done, x.1 ∈ types) →
    (∀ x ∈ l, C.HasIndex x.1 b T sa x.2) → Owned b T sa done S →
    ∃ Is S', loadSequence K b C l S = some (Is, S') ∧ S.Le S' ∧
      ∀ S'', S'.Le S'' → ∀ (i : Nat) (x : IndexType × Nat), l[i]? = some x → ∃ I : Object, Is[i]? = some I ∧ I.queries S'' = buildIndex x.1 T sa x.2 ∧ I.Loaded
  | [], done, S, _, _, _, _ => ⟨[], S, rfl, Storage.Le.refl _, fun _ _ i x h => by simp at h⟩
  | (t, s) :: l, done, S, hl, hd, hC, hS => by
    obtain ⟨p, hp, hfiles⟩ := hC (t, s) (by simp)
    have hcons := owned_consistent hS hp (fun t' s' h => noClash_clash hn (hd _ h) (hl (t, s) (by simp)))
    obtain ⟨I, S1, e1, e2, -, -, -, e4, e5, -⟩ := load_constructed K hp hfiles hcons
    have hS1 : Owned b T sa ((t, s) :: done) S1 := by
      intro k x hx
      rcases e5 k x hx with h | ⟨w, hw, hk, hxx⟩
      · obtain ⟨t', s', p', w', h1, h2⟩ := hS k x h
        exact ⟨t', s', p', w', by simp [h1], h2⟩
      · exact ⟨t, s, p, w, by simp, hp, hw, hk, hxx⟩
    obtain ⟨Is, S2, f1, f2, f3⟩ := loadSequence_ok b types hn l ((t, s) :: done) S1 (fun x hx => hl x (by simp [hx]))
      (by intro x hx; rcases List.mem_cons.1 hx with rfl | hx; exact hl _ (by simp); exact hd x hx) (fun x hx => hC x (by simp [hx])) hS1
    refine ⟨I :: Is, S2, ?_, e2.trans f2, ?_⟩
    · simp only [loadSequence, e1, f1, Option.bind_eq_bind, Option.bind_some, Option.pure_def]
    · intro S'' hle i x hi
      cases i with
      | zero =>
        simp only [List.getElem?_cons_zero, Option.some.injEq] at hi
        subst hi
        exact ⟨I, rfl, e4 S'' (f2.trans hle), loadCache_loaded e1⟩
      | succ i =>
        simp only [List.getElem?_cons_succ] at hi ⊢
        exact f3 S'' hle i x hi

end

/-- **C32** (partial): any sequence of indexes of one text, of any types and rates, repeated or not, loaded on one shared storage from a cache with
    their files: every load succeeds, and at the end every index answers exactly, as it does when it is loaded on a storage of its own.
    Missing: RIndex together with RCSAWithBWTRun (`c32_clash_violation`), indexes of different texts (`c32_texts_violation`) and load(in)
    on a storage that holds some of the items (`c32_stream_violation`). All indexes use the same bit vector type for their samples. -/
theorem c32_shared_partial {α : Type} (K : Codec α) (b : BvKind) (T sa : List Nat) (hT : IsText T) (hsa : IsSA T sa) (hn : T.length < 2^64)
    (C : Cache) (l : List (IndexType × Nat)) (hC : ∀ x ∈ l, C.HasIndex x.1 b T sa x.2) (hc : NoClash (l.map (·.1))) :
    ∃ Is S, loadSequence K b C l [] = some (Is, S) ∧ ∀ (i : Nat) (t : IndexType) (s : Nat), l[i]? = some (t, s) →
      ∃ (I : Object) (q : Queries) (Ip : Object) (Sp : Storage), Is[i]? = some I ∧ I.queries S = some q ∧ Exact q.count q.locate T sa (if t.backward then List.reverse else id) ∧
        (Object.fresh t b (rateArg t s)).loadCache K [] C = some (Ip, Sp) ∧ Ip.queries Sp = some q := by
  obtain ⟨Is, S, h1, -, h2⟩ := loadSequence_ok K b (C := C) (l.map (·.1)) hc l [] [] (fun x hx => List.mem_map.2 ⟨x, hx, rfl⟩) (fun x hx => by cases hx) hC
    (fun k x h => by cases h)
  refine ⟨Is, S, h1, fun i t s hi => ?_⟩
  obtain ⟨q, hq, he⟩ := buildIndex_exact t hT hsa hn s
  obtain ⟨I, e1, e2, -⟩ := h2 S (Storage.Le.refl _) i (t, s) hi
  obtain ⟨p, hp, hfiles⟩ := hC (t, s) (List.mem_of_getElem? hi)
  obtain ⟨Ip, Sp, g1, -, g2, -⟩ := load_constructed K hp hfiles (S := []) (fun _ _ => Or.inl rfl)
  exact ⟨I, q, Ip, Sp, e1, by rw [e2]; exact hq, he, g1, g2.trans hq⟩

/-- the cache after the construction of several indexes -/
def sharedCache (b : BvKind) (T sa : List Nat) (l : List (IndexType × Nat)) : Cache :=
  Cache.ofFiles (l.flatMap (fun x => ((partsOf x.1 T sa x.2).map (indexFiles x.1 b x.2)).getD []))

def exSpecs : List (IndexType × Nat) := [(.rIndex, 0), (.srIndexValidArea, 2), (.srIndex, 3), (.srCSASlimValidArea, 2), (.srCSA, 2), (.psiValidMark, 12)]

-- the hypotheses of the theorem above are met
example : ∀ x ∈ exSpecs, (sharedCache .sd exText exSA exSpecs).HasIndex x.1 .sd exText exSA x.2 := by
  have h : ∀ x ∈ exSpecs, ∃ h : (partsOf x.1 exText exSA x.2).isSome, ∀ f ∈ indexFiles x.1 .sd x.2 ((partsOf x.1 exText exSA x.2).get h),
      sharedCache .sd exText exSA exSpecs f.1.1 f.1.2 = some f.2 := by decide +kernel
  intro x hx
  obtain ⟨h1, h2⟩ := h x hx
  exact ⟨_, by simp, h2⟩
example : NoClash (exSpecs.map (·.1)) := by unfold NoClash; decide

/-! ## Violations -/

theorem read_cache {α : Type} {K : Codec α} {C : Cache} {ty : ItemType} {k : Key} {hash : Bool} {x : Item} {src : Source α}
    (h : LoadState.read K (.cache C) ty k hash = some (x, src)) : x.type = ty ∧ src = .cache C := by
  unfold LoadState.read at h
  simp only [Option.bind_eq_bind, Option.bind_eq_some_iff, Option.pure_def, Option.some.injEq, Prod.mk.injEq, assertC] at h
  obtain ⟨y, -, u, h1, rfl, rfl⟩ := h
  refine ⟨?_, rfl⟩
  revert h1
  by_cases hy : y.type = ty
  · intro _; exact hy
  · simp [hy]

theorem loadItem_source {α : Type} {K : Codec α} {C : Cache} {st st' : LoadState α} (hs : st.source = .cache C) {ty : ItemType} {k : Key} {hash : Bool}
    {x : Item} (h : LoadState.loadItem K st ty k hash = some (x, st')) : st'.source = .cache C := by
  unfold LoadState.loadItem at h
  split at h
  · simp only [Option.some.injEq, Prod.mk.injEq] at h; rw [← h.2]; exact hs
  · simp only [Option.bind_eq_bind, Option.bind_eq_some_iff, Option.pure_def] at h
    obtain ⟨⟨y, src⟩, hr, z, -, h⟩ := h
    simp only [Option.some.injEq, Prod.mk.injEq] at h
    rw [hs] at hr
    rw [← h.2]; exact (read_cache hr).2

theorem run_source {α : Type} {K : Codec α} {C : Cache} {keys : Slot → Key} {st st' : LoadState α} (hs : st.source = .cache C) {a : Access}
    (h : LoadState.run K keys st a = some st') : st'.source = .cache C := by
  unfold LoadState.run at h
  split at h <;> simp only [Option.bind_eq_bind, Option.bind_eq_some_iff, Option.pure_def, Option.some.injEq] at h
  · obtain ⟨⟨x, st1⟩, h1, rfl⟩ := h; exact loadItem_source hs h1
  · obtain ⟨⟨x, st1⟩, h1, rfl⟩ := h
    unfold LoadState.loadSupport at h1
    split at h1
    · simp only [Option.some.injEq, Prod.mk.injEq] at h1; rw [← h1.2]; exact hs
    · simp only [Option.bind_eq_bind, Option.bind_eq_some_iff, Option.pure_def] at h1
      obtain ⟨⟨b, st2⟩, h2, bv, -, ⟨y, src⟩, hr, z, -, h1⟩ := h1
      simp only [Option.some.injEq, Prod.mk.injEq] at h1
      rw [loadItem_source hs h2] at hr
      rw [← h1.2]; exact (read_cache hr).2

theorem run_clash {α : Type} {K : Codec α} {C : Cache} {keys : Slot → Key} {a : Access} {st : LoadState α} (hs : st.source = .cache C) {y : Item}
    (hp : a.part = .self) (hy : st.storage.find (keys a.slot) = some y) (ht : y.type ≠ a.ty) : LoadState.run K keys st a = none := by
  rw [run_self st hp]
  unfold LoadState.loadItem
  have hg : st.storage.get a.ty (keys a.slot) = none := by unfold Storage.get; rw [hy]; simp [ht]
  rw [hg]
  dsimp only
  cases hr : LoadState.read K st.source a.ty (keys a.slot) a.hash with
  | none => rfl
  | some z =>
    obtain ⟨x, src⟩ := z
    rw [hs] at hr
    have hx : ¬ y.type = x.type := by rw [(read_cache hr).1]; exact ht
    simp only [Option.bind_eq_bind, Option.bind_some, Storage.set_old x hy, if_neg hx]
    rfl

/-- an item of another type under a key makes every load that needs the key fail, even if the cache has all the files -/
theorem runAll_clash {α : Type} {K : Codec α} {C : Cache} {keys : Slot → Key} {a : Access} (hp : a.part = .self) {y : Item} (ht : y.type ≠ a.ty) :
    ∀ (as : List Access), a ∈ as → ∀ {st : LoadState α}, st.source = .cache C → st.storage.find (keys a.slot) = some y →
    LoadState.runAll K keys as st = none
  | [], h, _, _, _ => by cases h
  | a' :: as, h, st, hs, hy => by
    rw [LoadState.runAll]
    cases hr : LoadState.run K keys st a' with
    | none => rfl
    | some st' =>
      rcases List.mem_cons.1 h with rfl | h
      · rw [run_clash hs hp hy ht] at hr; cases hr
      · exact runAll_clash hp ht as h (run_source hs hr) (run_le hr _ _ hy)

theorem loadCache_clash {α : Type} (K : Codec α) {I : Object} {C : Cache} {S : Storage} {a : Access} (ha : a ∈ accesses I.type I.bv) (hp : a.part = .self)
    {y : Item} (ht : y.type ≠ a.ty) (hy : S.find (keyOf I.type I.pre a.slot) = some y) : I.loadCache K S C = none := by
  have h : LoadState.runAll K (keyOf I.type I.pre) (loadAllItems I.type I.bv ++ constructAccesses I.type I.bv) { storage := S, source := .cache C } = none :=
    runAll_clash hp ht (accesses I.type I.bv) ha (C := C) rfl hy
  unfold Object.loadCache Object.loadInner
  simp only [h, Option.bind_eq_bind, Option.bind_none]

/-- **C32**, violation 1: RIndex and RCSAWithBWTRun keep different items under the same two keys. For every text and every cache, once one of them
    is loaded, the other cannot be loaded on the same storage (it dereferences a null pointer). -/
theorem c32_clash_violation {α : Type} (K : Codec α) (b : BvKind) (T sa : List Nat) (C C' : Cache) :
    (C.HasIndex .rIndex b T sa 0 → ∃ I S, (Object.fresh .rIndex b none).loadCache K [] C = some (I, S) ∧
      (Object.fresh .rcsaWithBWTRun b none).loadCache K S C' = none) ∧
    (C.HasIndex .rcsaWithBWTRun b T sa 0 → ∃ I S, (Object.fresh .rcsaWithBWTRun b none).loadCache K [] C = some (I, S) ∧
      (Object.fresh .rIndex b none).loadCache K S C' = none) := by
  constructor
  · rintro ⟨p, hp, hC⟩
    have hwf := (partsOf_ok hp).1
    obtain ⟨S, h1, -, h2, -⟩ := loadCache_holds (K := K) (I := Object.fresh .rIndex b none) (C := C) (p := p) hwf (holds_of_files hC) (S := []) (fun _ _ => Or.inl rfl)
    refine ⟨_, S, h1, ?_⟩
    have h3 := h2 ⟨.marks, .self, .sdVector⟩ (by cases b <;> decide)
    exact loadCache_clash K (a := ⟨.samples, .self, .ints, .ints, false⟩) (by cases b <;> decide +kernel) rfl (y := .sdVector p.marks) (fun h => by cases h) h3
  · rintro ⟨p, hp, hC⟩
    have hwf := (partsOf_ok hp).1
    obtain ⟨S, h1, -, h2, -⟩ := loadCache_holds (K := K) (I := Object.fresh .rcsaWithBWTRun b none) (C := C) (p := p) hwf (holds_of_files hC) (S := []) (fun _ _ => Or.inl rfl)
    refine ⟨_, S, h1, ?_⟩
    have h3 := h2 ⟨.marks, .self, .sdVector⟩ (by cases b <;> decide)
    exact loadCache_clash K (a := ⟨.samples, .self, .ints, .ints, false⟩) (by cases b <;> decide +kernel) rfl (y := .sdVector p.marks) (fun h => by cases h) h3

/-- **C32**, violation 2: of two indexes of one type and rate on one storage, for different texts, the second answers for the text of the first. -/
theorem c32_texts_violation {α : Type} (K : Codec α) (t : IndexType) (b : BvKind) (T₁ sa₁ : List Nat) (h₁ : IsText T₁) (hsa₁ : IsSA T₁ sa₁)
    (hn₁ : T₁.length < 2^64) (s : Nat) (C₁ C₂ : Cache) (hC₁ : C₁.HasIndex t b T₁ sa₁ s) :
    ∃ I₁ S I₂ q, (Object.fresh t b (rateArg t s)).loadCache K [] C₁ = some (I₁, S) ∧
      (Object.fresh t b (rateArg t s)).loadCache K S C₂ = some (I₂, S) ∧ I₂.queries S = some q ∧
      Exact q.count q.locate T₁ sa₁ (if t.backward then List.reverse else id) := by
  obtain ⟨p, hp, hC⟩ := hC₁
  obtain ⟨q, hq, he⟩ := buildIndex_exact t h₁ hsa₁ hn₁ s
  obtain ⟨hwf, has⟩ := partsOf_ok hp
  have aux : ∀ J : Object, J.type = t → J.bv = b → J.pre = buildPrefix t s → p.assemble t J.rate = some q →
      ∃ I₁ S I₂ q, J.loadCache K [] C₁ = some (I₁, S) ∧ J.loadCache K S C₂ = some (I₂, S) ∧ I₂.queries S = some q ∧
        Exact q.count q.locate T₁ sa₁ (if t.backward then List.reverse else id) := by
    intro J h1 h2 h3 h4
    have hH := holds_of_files hC
    rw [← h3] at hH
    subst h1; subst h2
    obtain ⟨S, e1, -, e3, -⟩ := loadCache_holds (K := K) (I := J) hwf hH (S := []) (fun _ _ => Or.inl rfl)
    refine ⟨_, S, { J with keys := keyOf J.type J.pre }, q, e1, ?_, ?_, he⟩
    · have h := runAll_old (K := K) hwf e3 (.cache C₂)
      unfold accesses at h
      unfold Object.loadCache Object.loadInner
      simp only [h, Option.bind_eq_bind, Option.bind_some, Option.pure_def]
    · exact (queries_full (I := { J with keys := keyOf J.type J.pre }) (p := p) (S := S) hwf rfl e3).trans h4
  exact aux _ (fresh_type ..) (fresh_bv ..) (fresh_pre ..) (by rw [assemble_arg, has, hq])

/-- `Locate` of an index read from a stream on a storage where an index of another type of the same text is already loaded -/
def streamBeside (t₁ t₂ : IndexType) (s : Nat) (P : List Nat) : Option (List Nat) := do
  let (I, S) ← (Object.fresh t₂ .sd (rateArg t₂ s)).loadCache tokenCodec [] (indexCache t₂ .sd exText exSA s)
  let (_, S₁) ← (Object.fresh t₁ .sd (rateArg t₁ s)).loadCache tokenCodec [] (indexCache t₁ .sd exText exSA s)
  let (J, S₂, _) ← (Object.fresh t₂ .sd (rateArg t₂ s)).loadStream tokenCodec S₁ (I.serialize tokenCodec S)
  let q ← J.queries S₂
  q.locate P

/-- **C32**, violation 3: load(in) skips in the stream only what it reads, but an item that the storage already holds is not read. On every
    storage that holds an alphabet, as it does after any index was loaded there, but lacks an item of the index, the stream is read out of step and
    the load fails: for every index that answers queries, whatever its text, type and rate, and every constructor call for the new object. (The
    items that take no bytes are the supports of sd_vector; an item of one type is never read as one of another: `Typed`.) -/
theorem c32_stream_violation {α : Type} (K : Codec α) (hK : K.Faithful) (hT : K.Typed) (I : Object) (hI : I.Loaded) (S : Storage) (q : Queries)
    (hq : I.queries S = some q) (ctor : Option Nat) (S₁ : Storage) (ha : S₁.get .alphabet "alphabet".toList ≠ none)
    (w : Write) (hw : w ∈ writes I.type I.bv) (hn : w.ty.noBytes = false)
    (hm : S₁.get w.ty (w.key (keyOf I.type (Object.fresh I.type I.bv ctor).pre)) = none) (rest : List α) :
    (Object.fresh I.type I.bv ctor).loadStream K S₁ (I.serialize K S ++ rest) = none := by
  have hk := hI.keys
  obtain ⟨p, hp, hq⟩ : ∃ p, collect I.type I.bv I.keys S = some p ∧ p.assemble I.type I.rate = some q := by
    unfold Object.queries at hq
    simp only [Option.bind_eq_bind, Option.bind_eq_some_iff] at hq
    exact hq
  rw [hk] at hp
  have hwf := (collect_items hp).1
  rw [serialize_full hwf hk (collect_full hp), List.append_assoc]
  have hstream : ∃ l, (writes I.type I.bv).flatMap (fun w => K.enc (itemOf I.bv p w)) ++ rest = K.enc (.alphabet p.alphabet) ++ l := by
    refine ⟨((writes I.type I.bv).drop 1).flatMap (fun w => K.enc (itemOf I.bv p w)) ++ rest, ?_⟩
    have : writes I.type I.bv = ⟨.alphabet, .self, .alphabet⟩ :: (writes I.type I.bv).drop 1 := by
      generalize I.type = t; generalize I.bv = b
      cases t <;> cases b <;> rfl
    conv_lhs => rw [this]
    rw [List.flatMap_cons, List.append_assoc]; rfl
  obtain ⟨l, hl⟩ := hstream
  rw [hl]
  have main : ∀ J : Object, J.type = I.type → J.bv = I.bv → J.pre = (Object.fresh I.type I.bv ctor).pre →
      J.loadStream K S₁ ((if I.type.rateInStream then K.encSize I.rate else []) ++ (K.enc (.alphabet p.alphabet) ++ l)) = none := by
    intro J h1 h2 h3
    have key : ∀ J : Object, J.type = I.type → J.bv = I.bv → J.pre = (Object.fresh I.type I.bv ctor).pre →
        J.loadInner K { storage := S₁, source := .stream (K.enc (.alphabet p.alphabet) ++ l) } = none := fun J h1 h2 h3 =>
      loadInner_stuck hK (fun _ => ⟨trivial, trivial⟩) hT J (x := .alphabet p.alphabet) rfl (S := S₁) ha (w := w) (by rw [h1, h2]; exact hw) hn
        (by rw [h1, h3]; exact hm) l
    have h0 : J.type.rateInStream = I.type.rateInStream := by rw [h1]
    unfold Object.loadStream
    rw [h0]
    cases I.type.rateInStream with
    | true =>
      simp only [if_true, hK.size, Option.bind_eq_bind, Option.bind_some, Option.pure_def]
      rw [key { J with rate := I.rate } h1 h2 h3]
      rfl
    | false =>
      simp only [Bool.false_eq_true, if_false, List.nil_append, Option.bind_eq_bind, Option.bind_some, Option.pure_def]
      rw [key J h1 h2 h3]
      rfl
  exact main _ (by cases ctor <;> rfl) (by cases ctor <;> rfl) rfl

/-- some item of an index of type `t₂` at rate `s₂` that takes bytes is not an item of an index of type `t₁` at rate `s₁` -/
def Lacks (b : BvKind) (t₁ : IndexType) (s₁ : Nat) (t₂ : IndexType) (s₂ : Nat) : Prop :=
  ∃ w ∈ writes t₂ b, w.ty.noBytes = false ∧ ∀ w' ∈ writes t₁ b, w'.key (keyOf t₁ (buildPrefix t₁ s₁)) ≠ w.key (keyOf t₂ (buildPrefix t₂ s₂))

/-- **C32**, violation 3 for two indexes of any two texts: beside an index that lacks one of its items, no index can be read from a stream on the
    same storage -/
theorem c32_stream_beside_violation {α : Type} (K : Codec α) (hK : K.Faithful) (hT : K.Typed) (b : BvKind) (t₁ t₂ : IndexType) (s₁ s₂ : Nat)
    (T₁ sa₁ T₂ sa₂ : List Nat) (hT₂ : IsText T₂) (hsa₂ : IsSA T₂ sa₂) (hn₂ : T₂.length < 2^64) (C₁ C₂ : Cache) (h₁ : C₁.HasIndex t₁ b T₁ sa₁ s₁) (h₂ : C₂.HasIndex t₂ b T₂ sa₂ s₂) (hl : Lacks b t₁ s₁ t₂ s₂) :
    ∃ I₁ S₁ I₂ S₂, (Object.fresh t₁ b (rateArg t₁ s₁)).loadCache K [] C₁ = some (I₁, S₁) ∧
      (Object.fresh t₂ b (rateArg t₂ s₂)).loadCache K [] C₂ = some (I₂, S₂) ∧
      ∀ rest, (Object.fresh t₂ b (rateArg t₂ s₂)).loadStream K S₁ (I₂.serialize K S₂ ++ rest) = none := by
  obtain ⟨p₁, hp₁, hf₁⟩ := h₁
  obtain ⟨p₂, hp₂, hf₂⟩ := h₂
  obtain ⟨q₂, hq₂, -⟩ := buildIndex_exact t₂ hT₂ hsa₂ hn₂ s₂
  obtain ⟨hwf₁, -⟩ := partsOf_ok hp₁
  have hH := holds_of_files hf₁
  obtain ⟨I₂, S₂, g1, -, g2, g3, g4, -⟩ := load_constructed K hp₂ hf₂ (S := []) (fun _ _ => Or.inl rfl)
  have aux : ∀ J : Object, J.type = t₁ → J.bv = b → J.pre = buildPrefix t₁ s₁ → ∃ I₁ S₁, J.loadCache K [] C₁ = some (I₁, S₁) ∧
      S₁.Full t₁ b (buildPrefix t₁ s₁) p₁ ∧ Added (writes t₁ b) (keyOf t₁ (buildPrefix t₁ s₁)) (itemOf b p₁) [] S₁ := by
    intro J h1 h2 h3
    rw [← h3] at hH ⊢
    subst h1; subst h2
    obtain ⟨S, e1, -, e3, e4⟩ := loadCache_holds (K := K) (I := J) hwf₁ hH (S := []) (fun _ _ => Or.inl rfl)
    exact ⟨_, S, e1, e3, e4⟩
  obtain ⟨I₁, S₁, e1, e2, e3⟩ := aux _ (fresh_type ..) (fresh_bv ..) (fresh_pre ..)
  refine ⟨I₁, S₁, I₂, S₂, e1, g1, fun rest => ?_⟩
  obtain ⟨w, hw, hn, hl⟩ := hl
  have ha : S₁.get .alphabet "alphabet".toList ≠ none := by
    have := Storage.get_of_find (e2 ⟨.alphabet, .self, .alphabet⟩ (by rw [mem_writes]; exact Or.inl rfl))
    intro h
    have hk : Write.key ⟨.alphabet, .self, .alphabet⟩ (keyOf t₁ (buildPrefix t₁ s₁)) = "alphabet".toList := by
      simp [Write.key, Part.suffix, keyOf, keyName]
    rw [hk] at this
    exact absurd (this.symm.trans h) (by simp)
  have := c32_stream_violation K hK hT I₂ (loadCache_loaded g1) S₂ q₂ (g2.trans hq₂) (rateArg t₂ s₂) S₁ ha w (by rw [g3, g4]; exact hw) hn (by
    rw [g3, g4, fresh_pre]
    refine Storage.get_none ?_
    cases hf : S₁.find (w.key (keyOf t₂ (buildPrefix t₂ s₂))) with
    | none => rfl
    | some x =>
      rcases e3 _ _ hf with h | ⟨w', hw', h, -⟩
      · cases h
      · exact absurd h.symm (hl w' hw')) rest
  rw [g3, g4] at this
  exact this

-- pairs of types to which it applies; the loads on a text of 12 symbols
example : Lacks .sd .rIndex 0 .srCSA 5 := ⟨⟨.navigate, .self, .psi⟩, by decide +kernel, rfl, by decide +kernel⟩
example : Lacks .sd .srIndex 2 .srIndexValidMark 2 := ⟨⟨.validMarks, .self, .bitVector⟩, by decide +kernel, rfl, by decide +kernel⟩
example : Lacks .sd .rIndex 0 .srIndex 2 := ⟨⟨.samples, .self, .ints⟩, by decide +kernel, rfl, by decide +kernel⟩
example :
    streamBeside .rIndex .srIndex 2 [1] = none ∧ streamBeside .srIndex .srIndexValidMark 2 [1] = none ∧ streamBeside .rIndex .srCSA 2 [1] = none := by
  decide +kernel


/-! ## C33 for indexes -/

/-- **C33** (partial): two indexes of any types but the clashing pair, at different rates, loaded from the cache on one storage, each answer
    exactly, and no key of a rate-specific item of one is a key of an item of the other.
    Missing: load(in), which can store items under the keys of another rate (`c33_stream_violation`). -/
theorem c33_indexes_partial {α : Type} (K : Codec α) (b : BvKind) (T sa : List Nat) (hT : IsText T) (hsa : IsSA T sa) (hn : T.length < 2^64)
    (t₁ t₂ : IndexType) (s₁ s₂ : Nat) (hs : s₁ ≠ s₂) (ht₁ : t₁.sampled = true) (ht₂ : t₂.sampled = true)
    (C : Cache) (h₁ : C.HasIndex t₁ b T sa s₁) (h₂ : C.HasIndex t₂ b T sa s₂) :
    (∀ w₁ ∈ writes t₁ b, ∀ w₂ ∈ writes t₂ b, (keyName t₁ w₁.slot).1 = true →
      keyOf t₁ (ratePrefix s₁) w₁.slot ++ w₁.part.suffix ≠ keyOf t₂ (ratePrefix s₂) w₂.slot ++ w₂.part.suffix) ∧
    ∃ I₁ I₂ S q₁ q₂, loadSequence K b C [(t₁, s₁), (t₂, s₂)] [] = some ([I₁, I₂], S) ∧ I₁.queries S = some q₁ ∧ I₂.queries S = some q₂ ∧
      Exact q₁.count q₁.locate T sa (if t₁.backward then List.reverse else id) ∧
      Exact q₂.count q₂.locate T sa (if t₂.backward then List.reverse else id) := by
  refine ⟨fun w₁ hw₁ w₂ hw₂ hp => (c33_keys t₁ t₂ b b s₁ s₂ w₁ hw₁ w₂ hw₂ hp).1 hs, ?_⟩
  obtain ⟨Is, S, h, hI⟩ := c32_shared_partial K b T sa hT hsa hn C [(t₁, s₁), (t₂, s₂)]
    (by intro x hx; simp only [List.mem_cons, List.not_mem_nil, or_false] at hx; rcases hx with rfl | rfl <;> assumption)
    (by
      unfold NoClash
      simp only [List.map_cons, List.map_nil, List.mem_cons, List.not_mem_nil, or_false, not_and, not_or]
      rintro (rfl | rfl)
      · cases ht₁
      · cases ht₂)
  obtain ⟨I₁, q₁, -, -, a1, a2, a3, -⟩ := hI 0 t₁ s₁ rfl
  obtain ⟨I₂, q₂, -, -, b1, b2, b3, -⟩ := hI 1 t₂ s₂ rfl
  refine ⟨I₁, I₂, S, q₁, q₂, ?_, a2, b2, a3, b3⟩
  rw [h]
  have hl : ∀ (l : List (IndexType × Nat)) (S : Storage) (Is : List Object) (S' : Storage), loadSequence K b C l S = some (Is, S') → Is.length = l.length := by
    intro l
    induction l with
    | nil => intro S Is S' h; simp only [loadSequence, Option.some.injEq, Prod.mk.injEq] at h; rw [← h.1]; rfl
    | cons x l ih =>
      intro S Is S' h
      obtain ⟨t, s⟩ := x
      simp only [loadSequence, Option.bind_eq_bind, Option.bind_eq_some_iff, Option.pure_def, Option.some.injEq, Prod.mk.injEq] at h
      obtain ⟨⟨I, S1⟩, -, ⟨Js, S2⟩, h2, h3, -⟩ := h
      rw [← h3, List.length_cons, ih _ _ _ h2, List.length_cons]
  have := hl _ _ _ _ h
  match Is, this, a1, b1 with
  | [J₁, J₂], _, a1, b1 =>
    simp only [List.getElem?_cons_zero, Option.some.injEq, List.getElem?_cons_succ] at a1 b1
    rw [a1, b1]

/-! ## C44 -/

/-- what any operation of any index object on a shared storage does to it: a load from the cache or from a stream, finished or stopped by a
    failure after any of its accesses (also between a bit vector and its support), storing an item directly, and, with no effect, Count,
    Locate and serialize, which are const and read only -/
inductive StorageStep {α : Type} (K : Codec α) : Storage → Storage → Prop
  | cache (I I' : Object) (C : Cache) {S S' : Storage} : I.loadCache K S C = some (I', S') → StorageStep K S S'
  | stream (I I' : Object) (bytes rest : List α) {S S' : Storage} : I.loadStream K S bytes = some (I', S', rest) → StorageStep K S S'
  | failed (keys : Slot → Key) (as : List Access) (st st' : LoadState α) : LoadState.runAll K keys as st = some st' → StorageStep K st.storage st'.storage
  | failedSupport (st st' : LoadState α) (ty : ItemType) (k : Key) (hash : Bool) (x : Item) :
      LoadState.loadItem K st ty k hash = some (x, st') → StorageStep K st.storage st'.storage
  | set (S : Storage) (k : Key) (x : Item) : StorageStep K S (S.set k x).1
  | query (S : Storage) (I : Object) (P : List Nat) : StorageStep K S S
  | serialize (S : Storage) (I : Object) : StorageStep K S S

/-- a history of such operations -/
inductive History {α : Type} (K : Codec α) : Storage → Storage → Prop
  | nil (S : Storage) : History K S S
  | step {A B C : Storage} : StorageStep K A B → History K B C → History K A C

theorem loadInner_le {α : Type} {K : Codec α} {I I' : Object} {st st' : LoadState α} (h : I.loadInner K st = some (I', st')) : st.storage.Le st'.storage := by
  unfold Object.loadInner at h
  simp only [Option.bind_eq_bind, Option.bind_eq_some_iff, Option.pure_def, Option.some.injEq, Prod.mk.injEq] at h
  obtain ⟨st1, h1, -, rfl⟩ := h
  exact runAll_le _ h1

theorem step_le {α : Type} {K : Codec α} {S S' : Storage} (h : StorageStep K S S') : S.Le S' := by
  cases h with
  | cache I I' C h =>
    unfold Object.loadCache at h
    simp only [Option.bind_eq_bind, Option.bind_eq_some_iff, Option.pure_def, Option.some.injEq, Prod.mk.injEq] at h
    obtain ⟨⟨J, st⟩, h1, -, rfl⟩ := h
    exact loadInner_le h1
  | stream I I' bytes rest h =>
    unfold Object.loadStream at h
    simp only [Option.bind_eq_bind, Option.bind_eq_some_iff, Option.pure_def] at h
    obtain ⟨⟨J, b⟩, -, ⟨J', st⟩, h1, h⟩ := h
    split at h
    · simp only [Option.some.injEq, Prod.mk.injEq] at h
      obtain ⟨-, rfl, -⟩ := h
      exact loadInner_le h1
    · cases h
  | failed keys as st st' h => exact runAll_le _ h
  | failedSupport st st' ty k hash x h => exact loadItem_le h
  | set k x => exact Storage.set_le _ _ _
  | query I P => exact Storage.Le.refl _
  | serialize I => exact Storage.Le.refl _

theorem collect_le {t : IndexType} {b : BvKind} {keys : Slot → Key} {S S' : Storage} {p : Parts} (h : collect t b keys S = some p) (hle : S.Le S') :
    collect t b keys S' = some p := by
  obtain ⟨h1, h2⟩ := collect_items h
  exact collect_of h1 (fun w hw => hle.get (h2 w hw))

/-- **C44**: an index object that answers `q` over its storage answers `q` after any history of operations on that storage by any objects, itself
    included as long as it is not loaded again: queries, serialization, loads of other indexes, failed loads. -/
theorem c44_answers {α : Type} (K : Codec α) (I : Object) (S S' : Storage) (q : Queries) (hq : I.queries S = some q) (h : History K S S') :
    I.queries S' = some q := by
  have hle : S.Le S' := by
    clear hq
    induction h with
    | nil S => exact Storage.Le.refl _
    | step h1 _ ih => exact (step_le h1).trans ih
  unfold Object.queries at hq ⊢
  simp only [Option.bind_eq_bind, Option.bind_eq_some_iff] at hq
  obtain ⟨p, hp, hq⟩ := hq
  rw [collect_le hp hle]
  exact hq

-- RIndex is loaded and another item is stored
example : ∃ I S S' q, (Object.fresh .rIndex .sd none).loadCache tokenCodec [] (indexCache .rIndex .sd exText exSA 0) = some (I, S) ∧
    History tokenCodec S S' ∧ S' ≠ S ∧ I.queries S = some q ∧ I.queries S' = some q := by
  have hC : (indexCache .rIndex .sd exText exSA 0).HasIndex .rIndex .sd exText exSA 0 :=
    ⟨(partsOf .rIndex exText exSA 0).get (by decide +kernel), by simp, by decide +kernel⟩
  obtain ⟨p, hp, hC⟩ := hC
  obtain ⟨q, hq, -⟩ := buildIndex_exact .rIndex exText_isText exSA_isSA (by decide +kernel) 0
  obtain ⟨I, S, h1, -, h2, -⟩ := load_constructed tokenCodec hp hC (S := []) (fun _ _ => Or.inl rfl)
  have hist : History tokenCodec S (("psi".toList, Item.ints []) :: S) := by
    have hf : S.find "psi".toList = none := by
      have : ((Object.fresh .rIndex .sd none).loadCache tokenCodec [] (indexCache .rIndex .sd exText exSA 0)).all (fun x => x.2.find "psi".toList = none) = true := by
        decide +kernel
      have h1' : (Object.fresh .rIndex .sd none).loadCache tokenCodec [] (indexCache .rIndex .sd exText exSA 0) = some (I, S) := h1
      rw [h1'] at this
      simpa using this
    have hs := StorageStep.set (K := tokenCodec) S "psi".toList (.ints [])
    rw [Storage.set_new _ hf] at hs
    exact .step hs (.nil _)
  refine ⟨I, S, _, q, h1, hist, by simp, h2.trans hq, c44_answers tokenCodec I S _ q (h2.trans hq) hist⟩

end Sri
