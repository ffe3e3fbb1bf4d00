import Verif.Proofs.Factory
/-! # C60: the index factories of the benchmarks -/
namespace Sri
set_option autoImplicit false

/-- what the caller of a factory relies on, for the i-th request `c` (of class `cls`) and the index `m` handed out for it, when the storage of
    the factory has become `S`: the object is of the class and rate asked for; Count and Locate are exact on the text; sizeSequence() is the
    length of the text; answers and reported size are those of an index of its own that is loaded alone, on an empty storage -/
def Delivered {α : Type} (K : Codec α) (b : BvKind) (T sa : List Nat) (C : Cache) (cls : Option IndexType) (s : Nat) (m : FactoryKind.Made)
    (S : Storage) : Prop :=
  match cls with
  | some t => ∃ I q Ip Sp, m.idx = .index I ∧ I.type = t ∧ (t.sampled = true → I.rate = s) ∧
      I.queries S = some q ∧ Exact q.count q.locate T sa (if t.backward then List.reverse else id) ∧ m.idx.sizeSequence S = some T.length ∧
      (Object.fresh t b (rateArg t s)).loadCache K [] C = some (Ip, Sp) ∧ Ip.queries Sp = some q ∧ m.size = (Ip.serialize K Sp).length
  | none => ∃ q Sp, m.idx = .raw ∧ CSARaw.queriesOf S = some q ∧ Exact q.count q.locate T sa id ∧ m.idx.sizeSequence S = some T.length ∧
      CSARaw.loadCache K [] C = some Sp ∧ CSARaw.queriesOf Sp = some q ∧ m.size = (Handle.raw.serialize K Sp).length

theorem delivered {α : Type} {K : Codec α} {b : BvKind} {T sa : List Nat} (hT : IsText T) (hsa : IsSA T sa) (hn : T.length < 2^64) {C : Cache}
    {F : FactoryKind} {c : F.Request} {m : FactoryKind.Made} {S : Storage} (h : FactoryKind.Good K b T sa C c m S) :
    Delivered K b T sa C (F.cls c.type) c.samplingSize m S := by
  obtain ⟨h1, h2, S₀, h3, h4, h5⟩ := h
  obtain ⟨h2, h6⟩ := h2 S (Storage.Le.refl _)
  unfold FactoryKind.create at h3
  cases hcls : F.cls c.type with
  | some t =>
    rw [hcls] at h1 h2 h3 h4
    simp only [Option.bind_eq_bind, Option.bind_eq_some_iff, Option.pure_def, Option.some.injEq, Prod.mk.injEq] at h3
    obtain ⟨⟨I, S1⟩, h3, e1, rfl⟩ := h3
    obtain ⟨q, hq, he⟩ := buildIndex_exact t hT hsa hn c.samplingSize
    rw [← e1] at h1 h2 h4 h5
    obtain ⟨et, er⟩ := h1
    cases et
    exact ⟨I, q, I, S1, e1.symm, rfl, er, by rw [← hq]; exact h2, he, h6, h3, by rw [← hq]; exact h4, h5⟩
  | none =>
    rw [hcls] at h1 h2 h3 h4
    simp only [Option.bind_eq_bind, Option.bind_eq_some_iff, Option.pure_def, Option.some.injEq, Prod.mk.injEq] at h3
    obtain ⟨S1, h3, e1, rfl⟩ := h3
    obtain ⟨I, hb, he⟩ := csaraw_exact hT hsa hn
    rw [← e1] at h2 h4 h5
    have hq : FactoryKind.built none T sa c.samplingSize = some ⟨I.count, I.locate⟩ := by simp [FactoryKind.built, hb]
    exact ⟨⟨I.count, I.locate⟩, S1, e1.symm, h2.trans hq, he, h6, h3, h4.trans hq, h5⟩

theorem riFactory_ord : Function.Injective riFactory.ord := by
  intro a b h
  cases a <;> cases b <;> first | rfl | cases h

theorem csaFactory_ord : Function.Injective csaFactory.ord := by
  intro a b h
  cases a <;> cases b <;> first | rfl | cases h

/-- **C60**, the factory of benchmark/sr-index: any sequence of calls of make, with any index types and rates in any order, repeated or not, on a
    cache with the files of the indexes asked for. Every call succeeds; at the end every index handed out is the one asked for and answers
    exactly, with the size and the answers of an index that is loaded alone; equal requests have got the same index; sizeSequence() is the
    length of the text. -/
theorem c60_sr_index {α : Type} (K : Codec α) (b : BvKind) (T sa : List Nat) (hT : IsText T) (hsa : IsSA T sa) (hn : T.length < 2^64) (C : Cache)
    (l : List riFactory.Request) (hC : ∀ c ∈ l, ∀ t, riFactory.cls c.type = some t → C.HasIndex t b T sa c.samplingSize) :
    ∃ ms st, riFactory.makeAll K b C l (riFactory.new (constructBWT T sa)) = some (ms, st) ∧ ms.length = l.length ∧ st.sizeSequence = T.length ∧
      (∀ (i : Nat) (c : riFactory.Request), l[i]? = some c → ∃ m, ms[i]? = some m ∧ Delivered K b T sa C (riFactory.cls c.type) c.samplingSize m st.storage) ∧
      ∀ i j : Nat, i < l.length → l[i]? = l[j]? → ms[i]? = ms[j]? := by
  obtain ⟨ms, st, h1, h2, h3, -, h4, h5⟩ := FactoryKind.makeAll_ok K b hT hsa (C := C) riFactory_ord
    (types := [.rIndex, .srIndex, .srIndexValidMark, .srIndexValidArea]) (by unfold NoClash; decide) (fun e => by cases e <;> decide) l
    (riFactory.new (constructBWT T sa)) (FactoryKind.inv_new ..)
    (fun c hc => by
      have := hC c hc
      unfold FactoryKind.HasFiles
      cases hcls : riFactory.cls c.type with
      | some t => exact this t hcls
      | none => revert hcls; cases c.type <;> exact fun h => by cases h)
  refine ⟨ms, st, h1, h4, h3.trans (constructBWT_length hsa), ?_, ?_⟩
  · intro i c hi
    obtain ⟨m, e1, e2⟩ := h5 i c hi
    exact ⟨m, e1, delivered hT hsa hn (h2.2 c m e2)⟩
  · intro i j hi he
    rw [List.getElem?_eq_getElem hi] at he
    obtain ⟨m, e1, e2⟩ := h5 i _ (List.getElem?_eq_getElem hi)
    obtain ⟨m', f1, f2⟩ := h5 j _ he.symm
    rw [e1, f1, ← e2, f2]

/-- **C60**, the factory of benchmark/sr-csa: as above, with CSARaw among the types, for which the cache also has the suffix array. -/
theorem c60_sr_csa {α : Type} (K : Codec α) (b : BvKind) (T sa : List Nat) (hT : IsText T) (hsa : IsSA T sa) (hn : T.length < 2^64) (C : Cache)
    (l : List csaFactory.Request) (hC : ∀ c ∈ l, ∀ t, csaFactory.cls c.type = some t → C.HasIndex t b T sa c.samplingSize)
    (hraw : ∀ c ∈ l, csaFactory.cls c.type = none → C.HasRaw b T sa) :
    ∃ ms st, csaFactory.makeAll K b C l (csaFactory.new (constructBWT T sa)) = some (ms, st) ∧ ms.length = l.length ∧ st.sizeSequence = T.length ∧
      (∀ (i : Nat) (c : csaFactory.Request), l[i]? = some c → ∃ m, ms[i]? = some m ∧ Delivered K b T sa C (csaFactory.cls c.type) c.samplingSize m st.storage) ∧
      ∀ i j : Nat, i < l.length → l[i]? = l[j]? → ms[i]? = ms[j]? := by
  obtain ⟨ms, st, h1, h2, h3, -, h4, h5⟩ := FactoryKind.makeAll_ok K b hT hsa (C := C) csaFactory_ord
    (types := [.rcsaWithBWTRun, .rcsaWithPsiRun, .srCSA, .srCSASlim, .srCSAValidMark, .srCSAValidArea, .srCSASlimValidMark, .srCSASlimValidArea,
      .srCSAWithPsiRun, .psiValidMark, .psiValidArea]) (by unfold NoClash; decide) (fun e => by cases e <;> decide) l
    (csaFactory.new (constructBWT T sa)) (FactoryKind.inv_new ..)
    (fun c hc => by
      have := hC c hc
      have h' := hraw c hc
      unfold FactoryKind.HasFiles
      cases hcls : csaFactory.cls c.type with
      | some t => exact this t hcls
      | none => exact h' hcls)
  refine ⟨ms, st, h1, h4, h3.trans (constructBWT_length hsa), ?_, ?_⟩
  · intro i c hi
    obtain ⟨m, e1, e2⟩ := h5 i c hi
    exact ⟨m, e1, delivered hT hsa hn (h2.2 c m e2)⟩
  · intro i j hi he
    rw [List.getElem?_eq_getElem hi] at he
    obtain ⟨m, e1, e2⟩ := h5 i _ (List.getElem?_eq_getElem hi)
    obtain ⟨m', f1, f2⟩ := h5 j _ he.symm
    rw [e1, f1, ← e2, f2]

/-! ## The hypotheses are met -/

def exRequests : List csaFactory.Request :=
  [⟨.rCSA, 0⟩, ⟨.srCSAVA, 2⟩, ⟨.csaRaw, 0⟩, ⟨.srCSAPsiRunsVM, 3⟩, ⟨.srCSAVA, 2⟩, ⟨.srCSASlim, 2⟩]

/-- the cache after the construction of the indexes above; the suffix array is one of the files of every construction -/
def exFactoryCache : Cache := fun k h =>
  if k = "sa".toList ∧ h = none then some (.ints exSA)
  else sharedCache .sd exText exSA [(.rcsaWithBWTRun, 0), (.srCSAValidArea, 2), (.psiValidMark, 3), (.srCSASlim, 2)] k h

/-- the hypotheses of `c60_sr_csa` -/
theorem exRequests_files : (∀ c ∈ exRequests, ∀ t, csaFactory.cls c.type = some t → exFactoryCache.HasIndex t .sd exText exSA c.samplingSize) ∧
    (∀ c ∈ exRequests, csaFactory.cls c.type = none → exFactoryCache.HasRaw .sd exText exSA) := by
  have h : ∀ x ∈ [(IndexType.rcsaWithBWTRun, 0), (.srCSAValidArea, 2), (.psiValidMark, 3), (.srCSASlim, 2)],
      ∃ h : (partsOf x.1 exText exSA x.2).isSome, ∀ f ∈ indexFiles x.1 .sd x.2 ((partsOf x.1 exText exSA x.2).get h),
      exFactoryCache f.1.1 f.1.2 = some f.2 := by decide +kernel
  have key : ∀ x ∈ [(IndexType.rcsaWithBWTRun, 0), (.srCSAValidArea, 2), (.psiValidMark, 3), (.srCSASlim, 2)],
      exFactoryCache.HasIndex x.1 .sd exText exSA x.2 := by
    intro x hx
    obtain ⟨h1, h2⟩ := h x hx
    exact ⟨_, by simp, h2⟩
  refine ⟨?_, fun _ _ _ => ⟨key (.rcsaWithBWTRun, 0) (by simp), by decide⟩⟩
  intro c hc t ht
  simp only [exRequests, List.mem_cons, List.not_mem_nil, or_false] at hc
  rcases hc with rfl | rfl | rfl | rfl | rfl | rfl <;> cases ht
  · exact key (.rcsaWithBWTRun, 0) (by simp)
  · exact key (.srCSAValidArea, 2) (by simp)
  · exact key (.psiValidMark, 3) (by simp)
  · exact key (.srCSAValidArea, 2) (by simp)
  · exact key (.srCSASlim, 2) (by simp)

def exRiRequests : List riFactory.Request := [⟨.srIndexVA, 2⟩, ⟨.rIndex, 0⟩, ⟨.srIndex, 3⟩, ⟨.srIndexVA, 2⟩]

/-- the hypothesis of `c60_sr_index` -/
theorem exRiRequests_files : ∀ c ∈ exRiRequests, ∀ t, riFactory.cls c.type = some t →
    (sharedCache .sd exText exSA [(.rIndex, 0), (.srIndexValidArea, 2), (.srIndex, 3)]).HasIndex t .sd exText exSA c.samplingSize := by
  have h : ∀ x ∈ [(IndexType.rIndex, 0), (.srIndexValidArea, 2), (.srIndex, 3)],
      ∃ h : (partsOf x.1 exText exSA x.2).isSome, ∀ f ∈ indexFiles x.1 .sd x.2 ((partsOf x.1 exText exSA x.2).get h),
      sharedCache .sd exText exSA [(.rIndex, 0), (.srIndexValidArea, 2), (.srIndex, 3)] f.1.1 f.1.2 = some f.2 := by decide +kernel
  have key : ∀ x ∈ [(IndexType.rIndex, 0), (.srIndexValidArea, 2), (.srIndex, 3)],
      (sharedCache .sd exText exSA [(.rIndex, 0), (.srIndexValidArea, 2), (.srIndex, 3)]).HasIndex x.1 .sd exText exSA x.2 := by
    intro x hx
    obtain ⟨h1, h2⟩ := h x hx
    exact ⟨_, by simp, h2⟩
  intro c hc t ht
  simp only [exRiRequests, List.mem_cons, List.not_mem_nil, or_false] at hc
  rcases hc with rfl | rfl | rfl | rfl <;> cases ht
  · exact key (.srIndexValidArea, 2) (by simp)
  · exact key (.rIndex, 0) (by simp)
  · exact key (.srIndex, 3) (by simp)
  · exact key (.srIndexValidArea, 2) (by simp)

/-! ## Why there are two factories -/

/-- a factory with the types of both benchmarks would fail: after RIndex, RCSAWithBWTRun cannot be loaded on the same storage, for every text
    and every cache (`c32_clash_violation`) -/
theorem c60_both_violation {α : Type} (K : Codec α) (b : BvKind) (T sa : List Nat) (C : Cache) (hC : C.HasIndex .rIndex b T sa 0)
    (F : FactoryKind) (x y : F.Enum) (hx : F.cls x = some .rIndex) (hy : F.cls y = some .rcsaWithBWTRun) (hF : Function.Injective F.ord) :
    F.makeAll K b C [⟨x, 0⟩, ⟨y, 0⟩] (F.new (constructBWT T sa)) = none := by
  obtain ⟨I, S, h1, h2⟩ := (c32_clash_violation K b T sa C C).1 hC
  have hne : ¬ (⟨x, 0⟩ : F.Request) = ⟨y, 0⟩ := by
    intro e
    injection e with e
    rw [e, hy] at hx
    cases hx
  have e1 : FactoryKind.find (F.new (constructBWT T sa)).indexes ⟨x, 0⟩ = none := rfl
  have h1' : (Object.fresh .rIndex b (if IndexType.rIndex.sampled then some 0 else none)).loadCache K (F.new (constructBWT T sa)).storage C = some (I, S) := h1
  have h2' : (Object.fresh .rcsaWithBWTRun b (if IndexType.rcsaWithBWTRun.sampled then some 0 else none)).loadCache K S C = none := h2
  simp only [FactoryKind.makeAll, FactoryKind.make, e1, FactoryKind.create, hx, h1', Option.bind_eq_bind, Option.bind_some, Option.pure_def,
    FactoryKind.find_cons hF, if_neg hne]
  have e2 : FactoryKind.find (F.new (constructBWT T sa)).indexes ⟨y, 0⟩ = none := rfl
  simp only [e2, hy, h2', Option.bind_none]

end Sri
