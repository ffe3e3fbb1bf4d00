import Verif.Model.DefaultObject
import Verif.Props.Crash
/-! # C68: construct with the object's own rate, and objects without one -/
namespace Sri
set_option autoImplicit false

/-! ## Loads that miss a file -/

section
variable {α : Type} {K : Codec α}

theorem loadItem_missing {st : LoadState α} {ty : ItemType} {k : Key} {hash : Bool} {C : Cache} (hs : st.source = .cache C)
    (hf : st.storage.find k = none) (hC : C k (if hash then some ty else none) = none) : LoadState.loadItem K st ty k hash = none := by
  unfold LoadState.loadItem Storage.get
  rw [hf]
  simp only [hs, LoadState.read, hC, Option.bind_eq_bind, Option.bind_none]

/-- load fails if the file of an item is absent and no item loaded before is kept under its name -/
theorem runAll_missing {C : Cache} (keys : Slot → Key) (a : Access) (hp : a.part = .self) (hC : C (keys a.slot) (if a.hash then some a.ty else none) = none)
    (r : List Access) : ∀ (l : List Access),
      (∀ a' ∈ l, keys a'.slot ≠ keys a.slot ∧ (a'.part ≠ .self → keys a'.slot ++ a'.part.suffix ≠ keys a.slot)) →
      ∀ st : LoadState α, st.source = .cache C → st.storage.find (keys a.slot) = none → LoadState.runAll K keys (l ++ a :: r) st = none
  | [], _, st, hs, hf => by
    rw [List.nil_append]
    unfold LoadState.runAll LoadState.run
    rw [hp]
    simp only [loadItem_missing (K := K) hs hf hC, Option.bind_eq_bind, Option.bind_none]
  | a' :: l, hkeys, st, hs, hf => by
    have main : LoadState.run K keys st a' = none ∨ ∃ st', LoadState.run K keys st a' = some st' ∧ st'.source = .cache C ∧
        st'.storage.find (keys a.slot) = none := by
      obtain ⟨h1, h2⟩ := hkeys a' List.mem_cons_self
      unfold LoadState.run
      split
      · cases hl : LoadState.loadItem K st a'.ty (keys a'.slot) a'.hash with
        | none => exact Or.inl rfl
        | some q =>
          obtain ⟨s1, f1⟩ := loadItem_adds hs hl
          exact Or.inr ⟨q.2, rfl, s1, f1 _ (fun e => h1 e.symm) hf⟩
      · rename_i hq
        have h2' := h2 hq
        cases hl : LoadState.loadSupport K st a'.part.suffix a'.ty a'.sty (keys a'.slot) a'.hash with
        | none => exact Or.inl rfl
        | some q =>
          refine Or.inr ⟨q.2, rfl, ?_⟩
          unfold LoadState.loadSupport at hl
          split at hl
          · cases hl; exact ⟨hs, hf⟩
          · simp only [Option.bind_eq_bind, Option.bind_eq_some_iff, Option.pure_def, Option.some.injEq] at hl
            obtain ⟨⟨x, st₁⟩, h3, bv, -, ⟨y, src⟩, h4, z, -, rfl⟩ := hl
            obtain ⟨s1, f1⟩ := loadItem_adds hs h3
            have f2 := f1 _ (fun e => h1 e.symm) hf
            dsimp only at h4 s1 f2 ⊢
            have hsrc : src = .cache C := by
              simp only [s1, LoadState.read, Option.bind_eq_bind, Option.bind_eq_some_iff, Option.pure_def, Option.some.injEq, Prod.mk.injEq] at h4
              obtain ⟨_, -, _, -, -, e⟩ := h4
              exact e.symm
            refine ⟨hsrc, ?_⟩
            unfold Storage.set
            cases hk : st₁.storage.find (keys a'.slot ++ a'.part.suffix) with
            | some _ => exact f2
            | none =>
              change List.lookup _ (_ :: _) = none
              rw [List.lookup_cons]
              have : (keys a.slot == keys a'.slot ++ a'.part.suffix) = false := by
                rw [beq_eq_false_iff_ne]; exact fun e => h2' e.symm
              rw [this]
              exact f2
    rw [List.cons_append]
    unfold LoadState.runAll
    rcases main with h | ⟨st', h, h1, h2⟩
    · rw [h]; rfl
    · rw [h]
      simp only [Option.bind_eq_bind, Option.bind_some]
      exact runAll_missing keys a hp hC r l (fun a'' h'' => hkeys a'' (List.mem_cons_of_mem _ h'')) st' h1 h2

end

/-! ## What is never in a cache -/

/-- the files that no construction writes, and whose names none enters in file_map -/
def Foreign (f : File) : Prop :=
  ∀ (s : Nat) (t : IndexType) (b : BvKind), ∀ st ∈ program t b,
    (∀ r ∈ st.outputs.flatten, FileRef.file s r ≠ f) ∧ (∀ q ∈ st.aliases, FileRef.file s q.1 ≠ f)

/-- a process that has none of them -/
def NoForeign (P : Process) : Prop := ∀ f, Foreign f → P.disk f = none ∧ P.fileMap f = none

theorem run_foreign (bytes : List Nat) (s : Nat) (t : IndexType) (b : BvKind) : ∀ (steps : List CacheStep) (P : Process), (∀ st ∈ steps, st ∈ program t b) →
    NoForeign P →
    (∀ e ∈ (runSteps bytes s steps P).1, ¬ Foreign e.file) ∧ ∀ P', (runSteps bytes s steps P).2 = some P' → NoForeign P'
  | [], P, _, hP => ⟨by simp [runSteps], fun P' h => by cases h; exact hP⟩
  | st :: steps, P, hst, hP => by
    have hst' := fun st' h => hst st' (List.mem_cons_of_mem _ h)
    have hin := hst st List.mem_cons_self
    rw [runSteps_cons]
    split
    · exact run_foreign bytes s t b steps P hst' hP
    · cases hr : st.run bytes s P with
      | none => exact ⟨by simp, fun P' h => by cases h⟩
      | some es =>
        dsimp only
        have hev : ∀ e ∈ es, ¬ Foreign e.file := by
          intro e he hf
          unfold CacheStep.run at hr
          simp only [Option.bind_eq_bind, Option.bind_eq_some_iff, Option.pure_def, Option.some.injEq] at hr
          obtain ⟨xs, -, ys, -, rfl⟩ := hr
          obtain ⟨r', hr', e'⟩ := storeEvents_only s _ _ e he
          exact (hf s t b st hin).1 r' hr' e'
        have hA : NoForeign (st.after s es P) := by
          intro f hf
          constructor
          · change (P.disk.applyAll es) f = none
            rw [← Option.not_isSome_iff_eq_none, applyAll_exists]
            rintro (h | ⟨e, he, hfe⟩)
            · rw [(hP f hf).1] at h; cases h
            · exact hev e he (hfe ▸ hf)
          · change (st.aliases.foldl (fun m q => fun f => if f = q.1.file s then some (q.2.file s) else m f) P.fileMap) f = none
            have key : ∀ (l : List (FileRef × FileRef)) (m : File → Option File), (∀ q ∈ l, FileRef.file s q.1 ≠ f) → m f = none →
                (l.foldl (fun m q => fun f => if f = q.1.file s then some (q.2.file s) else m f) m) f = none := by
              intro l
              induction l with
              | nil => intro m _ h; exact h
              | cons q l ih =>
                intro m hq h
                refine ih _ (fun q' h' => hq q' (List.mem_cons_of_mem _ h')) ?_
                dsimp only
                rw [if_neg (fun e => hq q List.mem_cons_self e.symm)]
                exact h
            exact key _ _ (hf s t b st hin).2 (hP f hf).2
        obtain ⟨h1, h2⟩ := run_foreign bytes s t b steps _ hst' hA
        refine ⟨fun e he => ?_, h2⟩
        rcases List.mem_append.1 he with he | he
        · exact hev e he
        · exact h1 e he

theorem history_foreign {bytes : List Nat} {ok : Disk → Prop} {P : Process} (hP : CacheHistory bytes ok (Process.fresh Disk.empty) P) : NoForeign P := by
  induction hP with
  | start => exact fun f _ => ⟨rfl, rfl⟩
  | construct t b s _ hc ih => exact (run_foreign bytes s t b _ _ (fun _ h => h) ih).2 _ hc
  | @crash P t b s k _ _ ih =>
    intro f hf
    refine ⟨?_, rfl⟩
    change (P.disk.applyAll _) f = none
    rw [← Option.not_isSome_iff_eq_none, applyAll_exists]
    rintro (h | ⟨e, he, hfe⟩)
    · rw [(ih f hf).1] at h; cases h
    · exact (run_foreign bytes s t b _ _ (fun _ h => h) ih).1 e (List.mem_of_mem_take he) (hfe ▸ hf)
  | restart _ ih => exact fun f hf => ⟨(ih f hf).1, rfl⟩

/-- the names of samplesIdx, without a rate -/
def idxNames : List Key :=
  ["bwt_run_last_idx".toList, "bwt_run_first".toList, "bwt_run_first_idx".toList, "bwt_run_first_idx_sorted_alphabet".toList, "psi_run_first_idx".toList]

theorem idxNames_outputs (b' : BvKind) (t' : IndexType) : ∀ st ∈ program t' b',
    (∀ r ∈ st.outputs.flatten, r.1.key.1 = true ∨ r.1.key.2 ∉ idxNames ∨ r.2 = none) ∧ (∀ q ∈ st.aliases, q.1.2 = none) := by
  cases b' <;> cases t' <;> decide +kernel

theorem samplesIdx_name {t : IndexType} (ht : t.sampled = true) : keyOf t [] .samplesIdx ∈ idxNames := by
  cases t <;> first | exact absurd ht (by decide) | decide +kernel

theorem samplesIdx_foreign {t : IndexType} (ht : t.sampled = true) (b : BvKind) : Foreign (keyOf t [] .samplesIdx, some b.ty) := by
  have h2 : ((keyOf t [] .samplesIdx).head?).any (fun c => !c.isDigit) = true := by
    cases t <;> first | exact absurd ht (by decide) | decide +kernel
  intro s t' b' st hst
  obtain ⟨h1, h3⟩ := idxNames_outputs b' t' st hst
  constructor
  · intro r hr e
    unfold FileRef.file at e
    split at e
    · have e := congrArg Prod.fst e
      obtain ⟨c, l, hc, hd⟩ := ratePrefix_head s r.1.key.2
      dsimp only at e
      rw [← e, hc] at h2
      simp only [List.head?_cons, Option.any_some, hd] at h2
      cases h2
    · rename_i h
      rw [Prod.mk.injEq] at e
      rcases h1 r hr with h4 | h4 | h4
      · exact h h4
      · rw [e.1] at h4; exact h4 (samplesIdx_name ht)
      · rw [e.2] at h4; cases h4
  · intro q hq e
    have := congrArg Prod.snd e
    have h4 : q.1.2 = some b.ty := this
    rw [h3 q hq] at h4; cases h4

/-! ## The property -/

/-- loading an object again changes nothing -/
theorem loadCache_again {α : Type} {K : Codec α} {I I' : Object} {S S' : Storage} {C : Cache} (h : I.loadCache K S C = some (I', S')) (S₁ : Storage) :
    I'.loadCache K S₁ C = I.loadCache K S₁ C ∧ I' = { I with keys := keyOf I.type I.pre } := by
  unfold Object.loadCache Object.loadInner at h
  simp only [Option.bind_eq_bind, Option.bind_eq_some_iff, Option.pure_def, Option.some.injEq, Prod.mk.injEq] at h
  obtain ⟨⟨I₁, st⟩, ⟨st', -, rfl, -⟩, rfl, -⟩ := h
  exact ⟨rfl, rfl⟩

theorem program_base {t t₀ : IndexType} (h : t.constructBase = some t₀) (b : BvKind) :
    program t b = program t₀ b ++ Steps.srCSAValid ∧ t.sampled = true ∧ t₀.sampled = true := by
  cases t <;> cases h <;> exact ⟨rfl, rfl, rfl⟩

/-- what `construct` of a new object does when its own items and load succeed: `hP'` the items, `hl` the load, twice -/
theorem construct_eq {α : Type} {K : Codec α} {bytes : List Nat} {t : IndexType} {b : BvKind} {c : Option Nat} {s : Nat} {P P' : Process}
    (hs : (Object.fresh t b c).rate = s) (hP' : constructIn bytes t b s P = some P')
    (hbase : ∀ t₀, t.constructBase = some t₀ → ∃ P₁ r, constructIn bytes t₀ b s P = some P₁ ∧ (Object.fresh t₀ b c).loadCache K [] P₁.cache = some r)
    {I : Object} {S : Storage} (hl : (Object.fresh t b c).loadCache K [] P'.cache = some (I, S))
    {S' : Storage} (hl' : t.withAreas = true → (Object.fresh t b c).loadCache K S P'.cache = some (I, S')) :
    ∃ S₂, (Object.fresh t b c).construct K bytes [] P = some (P', some (I, S₂)) ∧ (S₂ = S ∨ t.withAreas = true ∧ S₂ = S') := by
  unfold Object.construct
  rw [fresh_type, fresh_bv, hs]
  cases ht : t.constructBase with
  | none =>
    refine ⟨S, ?_, Or.inl rfl⟩
    dsimp only
    rw [hP']
    simp only [Option.bind_eq_bind, Option.bind_some, Option.pure_def, hl]
  | some t₀ =>
    obtain ⟨P₁, r, h1, h2⟩ := hbase t₀ ht
    have h3 : (runSteps bytes s Steps.srCSAValid P₁).2 = some P' := by
      unfold constructIn at h1 hP'
      rw [(program_base ht b).1] at hP'
      have := runSteps_append bytes s (program t₀ b) Steps.srCSAValid P (es := (runSteps bytes s (program t₀ b) P).1) (P' := P₁)
        (Prod.ext rfl h1)
      rw [this] at hP'
      exact hP'
    have e : ({ type := t₀, bv := b, rate := s, pre := (Object.fresh t b c).pre, keys := (Object.fresh t b c).keys } : Object) = Object.fresh t₀ b c := by
      rw [← hs]; cases c <;> rfl
    by_cases ha : t.withAreas = true
    · refine ⟨S', ?_, Or.inr ⟨ha, rfl⟩⟩
      dsimp only
      simp only [h1, e, h2, h3, hl, Option.bind_eq_bind, Option.bind_some, Option.pure_def, ha, if_true]
      rw [(loadCache_again hl S).1, hl' ha]
    · refine ⟨S, ?_, Or.inl rfl⟩
      dsimp only
      simp only [h1, e, h2, h3, hl, Option.bind_eq_bind, Option.bind_some, Option.pure_def, ha, Bool.false_eq_true, if_false]

/-- **C68** (partial): `construct` of an object made with a rate (or of a class without one), in every state that constructions, crashes that
    leave a clean directory and new processes lead to, builds the index at that rate and loads it: count and locate are exact. What is missing
    are the objects of the other classes made without a rate: see `c68_default_violation`. -/
theorem c68_construct_partial {α : Type} (K : Codec α) (bytes : List Nat) (h0 : ∀ c ∈ bytes, c ≠ 0) (hn : bytes.length + 1 < 2^64) (P : Process)
    (hP : CacheHistory bytes CleanDisk (Process.fresh Disk.empty) P) (t : IndexType) (b : BvKind) (s : Nat) :
    ∃ P' I S q, (Object.fresh t b (if t.sampled then some s else none)).construct K bytes [] P = some (P', some (I, S)) ∧
      constructIn bytes t b (if t.sampled then s else 1) P = some P' ∧
      (t.sampled = true → I.rate = s) ∧ I.queries S = some q ∧ indexFromBytes t bytes s = some q ∧
      ∀ X, X ≠ [] → (∀ c ∈ X, c ∈ bytes) → ∃ i j l, q.count X = some (i, j) ∧ q.locate X = some l ∧ i ≤ j ∧
        j - i = (occurrences X bytes).length ∧ l.Perm (occurrences X bytes) := by
  obtain ⟨v, ⟨w⟩⟩ := ideal_exists h0 hn
  have hin := input_of_bytes h0
  obtain ⟨hs, hc⟩ := history_sound (v := v) (w := w) hin hP
  have hrate : (Object.fresh t b (rateArg t s)).rate = if t.sampled then s else 1 := by
    unfold rateArg
    cases t.sampled <;> rfl
  have harg : rateArg t (if t.sampled then s else 1) = rateArg t s := by
    unfold rateArg
    cases t.sampled <;> rfl
  have hbuild : ∀ T sa, buildIndex t T sa (if t.sampled then s else 1) = buildIndex t T sa s := by
    intro T sa
    cases ht : t.sampled with
    | true => rfl
    | false => cases t <;> first | exact absurd ht (by decide) | rfl
  generalize hr : (if t.sampled then s else 1) = r at *
  obtain ⟨es, P', h1, h2⟩ := construct_run hin t b r hs hc
  have h1' : constructIn bytes t b r P = some P' := by unfold constructIn; rw [h1]
  obtain ⟨p, hp, hC⟩ := ran_hasIndex h2
  obtain ⟨I, S, h3, -, h4, hI1, hI2, h5, h6, -⟩ := load_constructed K hp hC (S := []) (fun _ _ => Or.inl rfl)
  have hcons : Consistent (writes t b) (keyOf t (buildPrefix t r)) (itemOf b p) S := by
    intro w₁ hw₁
    cases hf : S.find (w₁.key (keyOf t (buildPrefix t r))) with
    | none => exact Or.inl rfl
    | some x =>
      rcases h6 _ _ hf with h | ⟨w₂, hw₂, e1, e2⟩
      · cases h
      · right
        rw [e2, (coherent_items (b := b) (partsOf_ok hp).1.nav _).inj _ hw₁ _ hw₂ e1]
  obtain ⟨I₂, S₂, h7, hle, -⟩ := load_constructed K hp hC (S := S) hcons
  rw [harg] at h3 h7
  have hI : I₂ = I := by rw [(loadCache_again h3 []).2, (loadCache_again h7 []).2]
  subst hI
  have hbase : ∀ t₀, t.constructBase = some t₀ → ∃ P₁ x, constructIn bytes t₀ b r P = some P₁ ∧
      (Object.fresh t₀ b (rateArg t s)).loadCache K [] P₁.cache = some x := by
    intro t₀ ht
    obtain ⟨-, e1, e2⟩ := program_base ht b
    obtain ⟨es₁, P₁, g1, g2⟩ := construct_run hin t₀ b r hs hc
    obtain ⟨p₁, gp, gC⟩ := ran_hasIndex g2
    obtain ⟨I₁, S₁, g3, -⟩ := load_constructed K gp gC (S := []) (fun _ _ => Or.inl rfl)
    refine ⟨P₁, (I₁, S₁), by unfold constructIn; rw [g1], ?_⟩
    rw [← harg]
    unfold rateArg at g3 ⊢
    rw [e2] at g3
    rw [e1]
    exact g3
  obtain ⟨S₃, h8, h9⟩ := construct_eq hrate h1' hbase h3 (fun _ => h7)
  obtain ⟨q, h10, h11⟩ := c01_end_to_end t bytes h0 hn s
  refine ⟨P', I₂, S₃, q, h8, h1', ?_, ?_, h10, h11⟩
  · intro ht
    rw [(loadCache_again h3 []).2]
    change (Object.fresh t b (rateArg t s)).rate = s
    rw [hrate, ← hr, if_pos ht]
  · have : I₂.queries S₃ = buildIndex t (bytes ++ [0]) (suffixArray (bytes ++ [0])) r := by
      rcases h9 with rfl | ⟨-, rfl⟩
      · exact h4
      · exact h5 _ hle
    rw [this, hbuild, ← h10]
    unfold indexFromBytes
    rw [hin.text]

/-- **C68**, violation: an object of a sub-sampled class that was made without a rate (`SrIndex<> index;`) says it has rate 1. For every text and
    in every state that constructions, crashes and new processes lead to, it cannot be loaded from the cache, because it looks for files
    without a rate in their names; and `construct` of it builds the files of rate 1 (of its base only, for the validated SR-CSA classes), which
    an object made with rate 1 then loads, and fails to load them. -/
theorem c68_default_violation {α : Type} (K : Codec α) (bytes : List Nat) (t : IndexType) (ht : t.sampled = true) (b : BvKind) :
    (∀ P, CacheHistory bytes (fun _ => True) (Process.fresh Disk.empty) P → (Object.fresh t b none).loadCache K [] P.cache = none) ∧
    ((∀ c ∈ bytes, c ≠ 0) → bytes.length + 1 < 2^64 → ∀ P, CacheHistory bytes CleanDisk (Process.fresh Disk.empty) P →
      ∃ P' q, (Object.fresh t b none).construct K bytes [] P = some (P', none) ∧ loadIn K (t.constructBase.getD t) b 1 P' = some q ∧
        indexFromBytes (t.constructBase.getD t) bytes 1 = some q) := by
  have hload : ∀ t, t.sampled = true → ∀ P, NoForeign P → (Object.fresh t b none).loadCache K [] P.cache = none := by
    intro t ht P hP
    obtain ⟨l, r, hl, hkeys⟩ : ∃ l r, accesses t b = l ++ (⟨.samplesIdx, .self, b.ty, b.ty, true⟩ : Access) :: r ∧
        ∀ a' ∈ l, keyOf t [] a'.slot ≠ keyOf t [] .samplesIdx ∧ (a'.part ≠ .self → keyOf t [] a'.slot ++ a'.part.suffix ≠ keyOf t [] .samplesIdx) := by
      refine ⟨(accesses t b).take 7, (accesses t b).drop 8, ?_, ?_⟩
      · cases t <;> first | exact absurd ht (by decide) | rfl
      · cases t <;> first | exact absurd ht (by decide) | (cases b <;> decide +kernel)
    obtain ⟨h1, h2⟩ := hP _ (samplesIdx_foreign ht b)
    have hC : P.cache (keyOf t [] .samplesIdx) (some b.ty) = none := by
      unfold Process.cache Process.fileName
      rw [h2, Option.getD_none, h1]; rfl
    have := runAll_missing (K := K) (keyOf t []) ⟨.samplesIdx, .self, b.ty, b.ty, true⟩ rfl hC r l hkeys { storage := [], source := .cache P.cache } rfl rfl
    rw [← hl] at this
    unfold Object.loadCache Object.loadInner
    change ((LoadState.runAll K (keyOf t []) (accesses t b) { storage := [], source := .cache P.cache }).bind _).bind _ = none
    rw [this]; rfl
  refine ⟨fun P hP => hload t ht P (history_foreign hP), fun h0 hn P hP => ?_⟩
  obtain ⟨P', q, h1, h2, h3, -⟩ := c34_resume_partial K bytes h0 hn P hP (t.constructBase.getD t) b 1
  refine ⟨P', q, ?_, h2, h3⟩
  have hP' := history_foreign (.construct (t.constructBase.getD t) b 1 hP h1)
  unfold Object.construct
  change (match t.constructBase with
    | none => _
    | some t₀ => _) = _
  cases hb : t.constructBase with
  | none =>
    rw [hb] at h1
    rw [Option.getD_none] at h1
    simp only [Option.bind_eq_bind, Option.pure_def]
    change (constructIn bytes t b 1 P).bind (fun P' => some (P', (Object.fresh t b none).loadCache K [] P'.cache)) = _
    rw [h1, Option.bind_some, hload t ht P' hP']
  | some t₀ =>
    rw [hb] at h1
    rw [Option.getD_some] at h1
    simp only [Option.bind_eq_bind, Option.pure_def]
    change (constructIn bytes t₀ b 1 P).bind (fun P₁ => match (Object.fresh t₀ b none).loadCache K [] P₁.cache with
      | none => some (P₁, none)
      | some _ => _) = _
    rw [h1, Option.bind_some, hload t₀ (program_base hb b).2.2 P' hP']

/-! ## Examples -/

/-- an object with rate 3 after one with rate 2, in one directory -/
example {α : Type} (K : Codec α) : ∃ P P' I S q, (Object.fresh .srIndexValidArea .sd (some 2)).construct K [98, 97, 98, 97] [] (Process.fresh Disk.empty) = some P ∧
    (Object.fresh .srCSASlimValidArea .plain (some 3)).construct K [98, 97, 98, 97] [] P.1 = some (P', some (I, S)) ∧ I.rate = 3 ∧ I.queries S = some q ∧
    ∃ i j l, q.count [98, 97] = some (i, j) ∧ q.locate [98, 97] = some l ∧ j - i = 2 ∧ l.Perm [0, 2] := by
  obtain ⟨P, I₀, S₀, q₀, h1, hP, -⟩ := c68_construct_partial K [98, 97, 98, 97] (by decide) (by decide) _ .start .srIndexValidArea .sd 2
  obtain ⟨P', I, S, q, h2, -, h3, h4, -, h5⟩ :=
    c68_construct_partial K [98, 97, 98, 97] (by decide) (by decide) P (.construct _ _ _ .start hP) .srCSASlimValidArea .plain 3
  obtain ⟨i, j, l, x1, x2, -, x3, x4⟩ := h5 [98, 97] (by decide) (by decide)
  exact ⟨_, P', I, S, q, h1, h2, h3 rfl, h4, i, j, l, x1, x2, x3.trans (by decide), x4.trans (by decide)⟩

/-- an object without a rate, of a class that has one -/
example {α : Type} (K : Codec α) : ∃ P' q, (Object.fresh .srCSAValidMark .sd none).construct K [98, 97, 98, 97] [] (Process.fresh Disk.empty) = some (P', none) ∧
    loadIn K .srCSA .sd 1 P' = some q ∧ indexFromBytes .srCSA [98, 97, 98, 97] 1 = some q :=
  (c68_default_violation K [98, 97, 98, 97] .srCSAValidMark rfl .sd).2 (by decide) (by decide) _ .start

end Sri
