import Verif.Model.Factory
import Verif.Props.Sharing
import Verif.Props.CSARaw
/-! # Index factories over one storage -/
namespace Sri
set_option autoImplicit false

/-- `C[sigma]` of the alphabet of a text is its length -/
theorem alphabet_total {T sa : List Nat} (hT : IsText T) (hsa : IsSA T sa) {b : BaseItems} (hb : constructBase T sa = some b) :
    b.alphabet.C[b.alphabet.sigma]? = some T.length := by
  obtain ⟨b', T', hb', ok⟩ := base_build hT hsa
  rw [hb] at hb'
  cases hb'
  have hc := ok.compact
  have hCn : cumC T' b.alphabet.sigma = T'.length := by
    rw [cumC, List.countP_eq_length]
    intro c hcm; simpa using hc.lt c hcm
  rw [hc.C b.alphabet.sigma (Nat.le_refl _), hCn, hc.len]

/-! ## CSARaw over a storage -/

namespace CSARaw

/-- the items of CSARaw -/
def itemOf (p : Parts) (sa : List Nat) (w : Write) : Item :=
  match w.slot with
  | .alphabet => .alphabet p.alphabet
  | .navigate => p.nav
  | _ => .ints sa

theorem mem_writes {w : Write} (h : w ∈ writes) : w = ⟨.alphabet, .self, .alphabet⟩ ∨ w = ⟨.navigate, .self, .psi⟩ ∨ w = ⟨.samples, .self, .ints⟩ := by
  simpa [writes] using h

theorem coherent {p : Parts} (hp : p.nav.type = .psi) (sa : List Nat) : Coherent writes keys (itemOf p sa) where
  type := by
    intro w hw
    rcases mem_writes hw with rfl | rfl | rfl
    · rfl
    · exact hp
    · rfl
  inj := by decide +kernel
  plain := by
    intro w hw _
    rcases mem_writes hw with rfl | rfl | rfl
    · rfl
    · show p.nav.unbound = p.nav
      cases h : p.nav <;> rw [h] at hp <;> first | rfl | cases hp
    · rfl

theorem fits (p : Parts) (sa : List Nat) : ∀ a ∈ loads, a.Fits writes (itemOf p sa) := by
  intro a ha
  have h : a.target ∈ writes ∧ a.base ∈ writes ∧ a.part = .self := by
    revert a
    decide +kernel
  exact ⟨h.1, h.2.1, fun h' => absurd h.2.2 h'⟩

end CSARaw

/-- a cache with the files that CSARaw loads: those of RCSAWithBWTRun and the suffix array -/
def Cache.HasRaw (C : Cache) (b : BvKind) (T sa : List Nat) : Prop :=
  C.HasIndex .rcsaWithBWTRun b T sa 0 ∧ C "sa".toList none = some (.ints sa)

theorem raw_key_index (w : Write) (hw : w ∈ CSARaw.writes) : w.key CSARaw.keys = "sa".toList ∨
    (∃ w', (∀ b, w' ∈ writes .rcsaWithBWTRun b) ∧ w.key CSARaw.keys = w'.key (keyOf .rcsaWithBWTRun (buildPrefix .rcsaWithBWTRun 0)) ∧
      ∀ b p sa, CSARaw.itemOf p sa w = itemOf b p w') := by
  rcases CSARaw.mem_writes hw with rfl | rfl | rfl
  · exact Or.inr ⟨⟨.alphabet, .self, .alphabet⟩, fun b => by cases b <;> decide, rfl, fun _ _ _ => rfl⟩
  · exact Or.inr ⟨⟨.navigate, .self, .psi⟩, fun b => by cases b <;> decide, rfl, fun _ _ _ => rfl⟩
  · exact Or.inl (by decide)

theorem raw_item_sa {p : Parts} {sa : List Nat} {w : Write} (hw : w ∈ CSARaw.writes) (h : w.key CSARaw.keys = "sa".toList) :
    CSARaw.itemOf p sa w = .ints sa := by
  rcases CSARaw.mem_writes hw with rfl | rfl | rfl
  · exact absurd h (by decide +kernel)
  · exact absurd h (by decide +kernel)
  · rfl

/-- no key of an index is "sa" -/
theorem key_ne_sa (t : IndexType) (b : BvKind) (s : Nat) (w : Write) (hw : w ∈ writes t b) : w.key (keyOf t (buildPrefix t s)) ≠ "sa".toList := by
  have h : (keyName t w.slot).1 = false → (keyName t w.slot).2 ++ w.part.suffix ≠ "sa".toList := by
    revert w
    cases t <;> cases b <;> decide +kernel
  intro e
  unfold Write.key keyOf at e
  cases hk : (keyName t w.slot).1 with
  | false =>
    simp only [hk, Bool.false_eq_true, if_false] at e
    exact h hk e
  | true =>
    simp only [hk, if_true] at e
    have hs : t.sampled = true := prefixed_sampled t w.slot hk
    have hm : '_' ∈ buildPrefix t s ++ (keyName t w.slot).2 ++ w.part.suffix := by
      unfold buildPrefix ratePrefix
      rw [hs]
      simp
    rw [e] at hm
    revert hm
    decide

/-- every item of the storage belongs to one of the indexes under its key, or is the suffix array -/
def Filled (b : BvKind) (T sa : List Nat) (done : List (IndexType × Nat)) (S : Storage) : Prop :=
  ∀ k x, S.find k = some x → (∃ t s p w, (t, s) ∈ done ∧ partsOf t T sa s = some p ∧ w ∈ writes t b ∧
    k = w.key (keyOf t (buildPrefix t s)) ∧ x = itemOf b p w) ∨ (k = "sa".toList ∧ x = .ints sa)

theorem filled_consistent {b : BvKind} {T sa : List Nat} {done : List (IndexType × Nat)} {S : Storage} (hS : Filled b T sa done S) {t : IndexType} {s : Nat}
    {p : Parts} (hp : partsOf t T sa s = some p) (hc : ∀ t' s', (t', s') ∈ done → clash t' t = false) :
    Consistent (writes t b) (keyOf t (buildPrefix t s)) (itemOf b p) S := by
  intro w hw
  cases h : S.find (w.key (keyOf t (buildPrefix t s))) with
  | none => exact Or.inl rfl
  | some x =>
    right
    rcases hS _ _ h with ⟨t', s', p', w', hd, hp', hw', e, rfl⟩ | ⟨e, -⟩
    · rw [shared_item b (hc t' s' hd) hp' hp hw' hw e.symm]
    · exact absurd e (key_ne_sa t b s w hw)

theorem filled_consistent_raw {b : BvKind} {T sa : List Nat} {done : List (IndexType × Nat)} {S : Storage} (hS : Filled b T sa done S)
    {p : Parts} (hp : partsOf .rcsaWithBWTRun T sa 0 = some p) (hc : ∀ t' s', (t', s') ∈ done → clash t' .rcsaWithBWTRun = false) :
    Consistent CSARaw.writes CSARaw.keys (CSARaw.itemOf p sa) S := by
  intro w hw
  cases h : S.find (w.key CSARaw.keys) with
  | none => exact Or.inl rfl
  | some x =>
    right
    rcases raw_key_index w hw with e0 | ⟨w₀, hw₀, e0, hv⟩
    · rcases hS _ _ h with ⟨t', s', p', w', hd, hp', hw', e, rfl⟩ | ⟨e, rfl⟩
      · exact absurd (e.symm.trans e0) (key_ne_sa t' b s' w' hw')
      · rw [raw_item_sa hw e]
    · rcases hS _ _ h with ⟨t', s', p', w', hd, hp', hw', e, rfl⟩ | ⟨e, rfl⟩
      · rw [hv b p sa, shared_item b (hc t' s' hd) hp' hp hw' (hw₀ b) (e.symm.trans e0)]
      · rw [raw_item_sa hw e]

namespace FactoryKind

/-- the queries that an index of the given class answers with -/
def built (cls : Option IndexType) (T sa : List Nat) (s : Nat) : Option Queries :=
  match cls with
  | some t => buildIndex t T sa s
  | none => (CSARaw.build T sa).map (fun I => ⟨I.count, I.locate⟩)

/-- the type whose items an index of the class uses -/
def itemsOf (cls : Option IndexType) : IndexType := cls.getD .rcsaWithBWTRun

/-- the cache has the files that an index of the class loads -/
def HasFiles (C : Cache) (b : BvKind) (T sa : List Nat) (cls : Option IndexType) (s : Nat) : Prop :=
  match cls with
  | some t => C.HasIndex t b T sa s
  | none => C.HasRaw b T sa

/-- the object is of the class, with the rate `s` if the class has a rate -/
def IsOf (cls : Option IndexType) (s : Nat) : Handle → Prop
  | .index I => cls = some I.type ∧ (I.type.sampled = true → I.rate = s)
  | .raw => cls = none

/-- a new object of a class: the same object whatever the storage holds of the items of the other indexes, with its answers and its bytes
    fixed from then on -/
theorem create_ok {α : Type} (K : Codec α) (b : BvKind) {T sa : List Nat} (hT : IsText T) (hsa : IsSA T sa) {C : Cache} (F : FactoryKind)
    (c : F.Request) (hC : HasFiles C b T sa (F.cls c.type) c.samplingSize) :
    ∃ h bytes s, IsOf (F.cls c.type) c.samplingSize h ∧ ∀ (done : List (IndexType × Nat)) (S : Storage), Filled b T sa done S →
      (∀ t' s', (t', s') ∈ done → clash t' (itemsOf (F.cls c.type)) = false) →
      ∃ S', F.create K b C S c = some (h, S') ∧ S.Le S' ∧ Filled b T sa ((itemsOf (F.cls c.type), s) :: done) S' ∧
        ∀ S'', S'.Le S'' → h.queries S'' = built (F.cls c.type) T sa c.samplingSize ∧ h.sizeSequence S'' = some T.length ∧ h.serialize K S'' = bytes := by
  unfold FactoryKind.create
  cases hcls : F.cls c.type with
  | some t =>
    rw [hcls] at hC
    obtain ⟨p, hp, hfiles⟩ := hC
    obtain ⟨hwf, has⟩ := partsOf_ok hp
    have hH := holds_of_files hfiles
    set s := c.samplingSize with hs
    have aux : ∀ J : Object, J.type = t → J.bv = b → J.pre = buildPrefix t s → p.assemble t J.rate = buildIndex t T sa s →
        (t.sampled = true → J.rate = s) → ∃ h bytes, IsOf (some t) s h ∧ ∀ (done : List (IndexType × Nat)) (S : Storage), Filled b T sa done S →
        (∀ t' s', (t', s') ∈ done → clash t' t = false) →
        ∃ S', (do let (I, S) ← J.loadCache K S C; return (Handle.index I, S)) = some (h, S') ∧ S.Le S' ∧ Filled b T sa ((t, s) :: done) S' ∧
          ∀ S'', S'.Le S'' → h.queries S'' = buildIndex t T sa s ∧ h.sizeSequence S'' = some T.length ∧ h.serialize K S'' = bytes := by
      intro J h1 h2 h3 h4 h5
      subst h1; subst h2
      rw [← h3] at hH
      refine ⟨.index { J with keys := keyOf J.type J.pre },
        (if J.type.rateInStream then K.encSize J.rate else []) ++ (writes J.type J.bv).flatMap (fun w => K.enc (itemOf J.bv p w)), ⟨rfl, h5⟩, fun done S hS hc => ?_⟩
      have hcons := filled_consistent hS hp hc
      rw [← h3] at hcons
      obtain ⟨S', e1, e2, e3, e4⟩ := loadCache_holds (K := K) (I := J) hwf hH hcons
      refine ⟨S', by simp only [e1, Option.bind_eq_bind, Option.bind_some, Option.pure_def], e2, ?_, ?_⟩
      · intro k x hx
        rcases e4 k x hx with h | ⟨w, hw, hk, hxx⟩
        · rcases hS k x h with ⟨t', s', p', w', g1, g2⟩ | h
          · exact Or.inl ⟨t', s', p', w', by simp [g1], g2⟩
          · exact Or.inr h
        · exact Or.inl ⟨J.type, s, p, w, by simp, hp, hw, by rw [← h3]; exact hk, hxx⟩
      · intro S'' hle
        have hfull := e3.le hle
        refine ⟨(queries_full (I := { J with keys := keyOf J.type J.pre }) (p := p) (S := S'') hwf rfl hfull).trans h4, ?_,
          serialize_full (K := K) (I := { J with keys := keyOf J.type J.pre }) (p := p) (S := S'') hwf rfl hfull⟩
        have hw : (⟨.alphabet, .self, .alphabet⟩ : Write) ∈ writes J.type J.bv := by simp [writes]
        have hg := Storage.get_of_find (hfull _ hw)
        obtain ⟨bb, hbb, ea, -⟩ := text_alphabet (partsOf_text hp)
        have hkey : (Handle.index { J with keys := keyOf J.type J.pre }).alphabetKey =
            (⟨.alphabet, .self, .alphabet⟩ : Write).key (keyOf J.type J.pre) := by
          simp [Write.key, Part.suffix, Handle.alphabetKey]
        have hg' : Storage.get S'' .alphabet ((⟨.alphabet, .self, .alphabet⟩ : Write).key (keyOf J.type J.pre)) = some (.alphabet p.alphabet) := hg
        unfold Handle.sizeSequence
        rw [hkey, hg']
        dsimp only at ea ⊢
        rw [ea]
        exact alphabet_total hT hsa hbb
    obtain ⟨h, bytes, g1, g2⟩ := aux (Object.fresh t b (rateArg t s)) (fresh_type ..) (fresh_bv ..) (fresh_pre ..) (by rw [assemble_arg, has])
      (by intro h; simp [rateArg, h, Object.fresh])
    exact ⟨h, bytes, s, g1, g2⟩
  | none =>
    rw [hcls] at hC
    obtain ⟨⟨p, hp, hfiles⟩, hsaf⟩ := hC
    obtain ⟨hwf, -⟩ := partsOf_ok hp
    have hnav : p.nav.type = .psi := hwf.nav
    have hH := holds_of_files hfiles
    have hcached : ∀ a ∈ CSARaw.loads, a.Cached C CSARaw.keys (CSARaw.itemOf p sa) := by
      intro a ha
      have hm : a = ⟨.alphabet, .self, .alphabet, .alphabet, false⟩ ∨ a = ⟨.navigate, .self, .psi, .psi, true⟩ ∨
          a = ⟨.samples, .self, .ints, .ints, false⟩ := by simpa [CSARaw.loads] using ha
      rcases hm with rfl | rfl | rfl
      · have := hH ⟨.alphabet, .self, .alphabet, .alphabet, false⟩ (by cases b <;> decide)
        exact ⟨this, this⟩
      · have := hH ⟨.navigate, .self, .psi, .psi, true⟩ (by cases b <;> decide)
        exact ⟨this, this⟩
      · exact ⟨hsaf, hsaf⟩
    refine ⟨.raw, CSARaw.writes.flatMap (fun w => K.enc (CSARaw.itemOf p sa w)), 0, rfl, fun done S hS hc => ?_⟩
    have hcoh := CSARaw.coherent hnav sa
    obtain ⟨S', e1, e2, e3, e4⟩ := runAll_cached (K := K) hcoh CSARaw.loads (CSARaw.fits p sa) hcached (filled_consistent_raw hS hp hc)
    refine ⟨S', ?_, runAll_le _ e1, ?_, ?_⟩
    · simp only [CSARaw.loadCache, e1, Option.bind_eq_bind, Option.bind_some, Option.pure_def]
    · intro k x hx
      rcases e3 k x hx with h | ⟨w, hw, hk, hxx⟩
      · rcases hS k x h with ⟨t', s', p', w', g1, g2⟩ | h
        · exact Or.inl ⟨t', s', p', w', by simp [g1], g2⟩
        · exact Or.inr h
      · rcases raw_key_index w hw with e0 | ⟨w₀, hw₀, e0, hv⟩
        · exact Or.inr ⟨hk.trans e0, by rw [hxx, raw_item_sa hw e0]⟩
        · exact Or.inl ⟨.rcsaWithBWTRun, 0, p, w₀, by simp [itemsOf], hp, hw₀ b, hk.trans e0, by rw [hxx, hv b p sa]⟩
    · intro S'' hle
      have hfind : ∀ w ∈ CSARaw.writes, S''.find (w.key CSARaw.keys) = some (CSARaw.itemOf p sa w) := by
        intro w hw
        rcases CSARaw.mem_writes hw with rfl | rfl | rfl
        · exact hle _ _ (e4 ⟨.alphabet, .self, .alphabet, .alphabet, false⟩ (by decide))
        · exact hle _ _ (e4 ⟨.navigate, .self, .psi, .psi, true⟩ (by decide))
        · exact hle _ _ (e4 ⟨.samples, .self, .ints, .ints, false⟩ (by decide))
      have ga : S''.get .alphabet (CSARaw.keys .alphabet) = some (.alphabet p.alphabet) :=
        Storage.get_of_find (hfind ⟨.alphabet, .self, .alphabet⟩ (by decide))
      have gn : S''.get .psi (CSARaw.keys .navigate) = some p.nav := by
        have := Storage.get_of_find (hfind ⟨.navigate, .self, .psi⟩ (by decide))
        rw [hcoh.type _ (by decide)] at this
        exact this
      have gs : S''.get .ints (CSARaw.keys .samples) = some (.ints sa) :=
        Storage.get_of_find (hfind ⟨.samples, .self, .ints⟩ (by decide))
      obtain ⟨bb, hbb, ea, -, en⟩ := text_alphabet (partsOf_text hp)
      obtain ⟨ps, hps, en⟩ := en rfl
      dsimp only at ea en
      refine ⟨?_, ?_, ?_⟩
      · unfold Handle.queries CSARaw.queriesOf built CSARaw.build Storage.getInts
        rw [ga, gn, gs, en, ea]
        simp only [Option.bind_eq_bind, Option.bind_some, hbb, hps, Option.pure_def]
        cases CSARaw.ofItems bb.alphabet ps.core sa <;> rfl
      · unfold Handle.sizeSequence Handle.alphabetKey
        rw [ga]
        dsimp only
        rw [ea]
        exact alphabet_total hT hsa hbb
      · unfold Handle.serialize
        have : ∀ (l : List Write), (∀ w ∈ l, w ∈ CSARaw.writes) →
            l.flatMap (serializeItem K S'' CSARaw.keys) = l.flatMap (fun w => K.enc (CSARaw.itemOf p sa w)) := by
          intro l
          induction l with
          | nil => intro _; rfl
          | cons w l ih =>
            intro hl
            rw [List.flatMap_cons, List.flatMap_cons, ih (fun w hw => hl w (by simp [hw]))]
            congr 1
            have hg := Storage.get_of_find (hfind w (hl w (by simp)))
            rw [hcoh.type _ (hl w (by simp))] at hg
            unfold serializeItem
            have hg' : S''.get w.ty (CSARaw.keys w.slot ++ w.part.suffix) = some (CSARaw.itemOf p sa w) := hg
            rw [hg']
        exact this _ (fun _ h => h)

/-! ## Sequences of calls -/

section
variable {F : FactoryKind}

/-- neither of two requests is less than the other exactly when they are the same -/
theorem same_iff (hF : Function.Injective F.ord) (a c : F.Request) : (!a.lt c && !c.lt a) = true ↔ a = c := by
  obtain ⟨t, s⟩ := a
  obtain ⟨t', s'⟩ := c
  unfold Request.lt
  simp only [Bool.and_eq_true, Bool.not_eq_true', Bool.or_eq_false_iff, decide_eq_false_iff_not, Bool.and_eq_false_iff, Request.mk.injEq]
  constructor
  · rintro ⟨⟨h1, h2⟩, h3, h4⟩
    have e : F.ord t = F.ord t' := by omega
    refine ⟨hF e, ?_⟩
    rcases h2 with h | h
    · exact absurd e h
    · rcases h4 with h' | h'
      · exact absurd e.symm h'
      · omega
  · rintro ⟨rfl, rfl⟩
    simp

open Classical in
theorem find_cons (hF : Function.Injective F.ord) (l : List (F.Request × Made)) (a c : F.Request) (m : Made) :
    find ((a, m) :: l) c = if a = c then some m else find l c := by
  unfold find
  rw [List.find?_cons]
  by_cases h : a = c
  · rw [if_pos h, (same_iff hF a c).2 h]; rfl
  · have : (!a.lt c && !c.lt a) = false := by
      rw [← Bool.not_eq_true, same_iff hF]; exact h
    simp only [this, if_neg h]

/-- what a factory promises of an index it has made -/
def Good {α : Type} (K : Codec α) (b : BvKind) (T sa : List Nat) (C : Cache) (c : F.Request) (m : Made) (S : Storage) : Prop :=
  IsOf (F.cls c.type) c.samplingSize m.idx ∧
  (∀ S'', S.Le S'' → m.idx.queries S'' = built (F.cls c.type) T sa c.samplingSize ∧ m.idx.sizeSequence S'' = some T.length) ∧
  ∃ S₀, F.create K b C [] c = some (m.idx, S₀) ∧ m.idx.queries S₀ = built (F.cls c.type) T sa c.samplingSize ∧ m.size = (m.idx.serialize K S₀).length

/-- the storage holds items of indexes of the given types, and every index made is as promised -/
def Inv {α : Type} (K : Codec α) (b : BvKind) (T sa : List Nat) (C : Cache) (types : List IndexType) (st : F.State) : Prop :=
  (∃ done, (∀ x ∈ done, x.1 ∈ types) ∧ Filled b T sa done st.storage) ∧ ∀ c m, find st.indexes c = some m → Good K b T sa C c m st.storage

theorem inv_new {α : Type} (K : Codec α) (b : BvKind) (T sa : List Nat) (C : Cache) (types : List IndexType) (bwt : List Nat) :
    Inv K b T sa C types (F.new bwt) :=
  ⟨⟨[], fun _ h => by (cases h), fun _ _ h => by cases h⟩, fun _ _ h => by cases h⟩

theorem make_ok {α : Type} (K : Codec α) (b : BvKind) {T sa : List Nat} (hT : IsText T) (hsa : IsSA T sa) {C : Cache}
    (hF : Function.Injective F.ord) {types : List IndexType} (hn : NoClash types) (ht : ∀ e, itemsOf (F.cls e) ∈ types) {st : F.State}
    (hi : Inv K b T sa C types st) (c : F.Request) (hC : HasFiles C b T sa (F.cls c.type) c.samplingSize) :
    ∃ m st', F.make K b C st c = some (m, st') ∧ Inv K b T sa C types st' ∧ st'.n = st.n ∧ find st'.indexes c = some m ∧
      ∀ c' m', find st.indexes c' = some m' → find st'.indexes c' = some m' := by
  unfold make
  cases hf : find st.indexes c with
  | some m => exact ⟨m, st, rfl, hi, rfl, hf, fun _ _ h => h⟩
  | none =>
    obtain ⟨⟨done, hd, hS⟩, hg⟩ := hi
    obtain ⟨h, bytes, s, h1, h2⟩ := create_ok K b hT hsa F c hC
    obtain ⟨S', e1, e2, e3, e4⟩ := h2 done st.storage hS (fun t' s' hx => noClash_clash hn (hd _ hx) (ht _))
    obtain ⟨S₀, f1, -, -, f4⟩ := h2 [] [] (fun _ _ h => by cases h) (fun _ _ h => by cases h)
    have hmono : ∀ c' m', find st.indexes c' = some m' → find ((c, { idx := h, size := (h.serialize K S').length }) :: st.indexes) c' = some m' := by
      intro c' m' hm
      rw [find_cons hF]
      split
      · rename_i e
        rw [← e, hf] at hm
        cases hm
      · exact hm
    refine ⟨{ idx := h, size := (h.serialize K S').length },
      { st with storage := S', indexes := (c, { idx := h, size := (h.serialize K S').length }) :: st.indexes }, ?_, ⟨⟨_, ?_, e3⟩, ?_⟩, rfl, ?_, hmono⟩
    · simp only [e1, Option.bind_eq_bind, Option.bind_some, Option.pure_def]
    · intro x hx
      rcases List.mem_cons.1 hx with rfl | hx
      · exact ht _
      · exact hd x hx
    · intro c' m' hm
      dsimp only at hm ⊢
      rw [find_cons hF] at hm
      split at hm
      · rename_i e
        subst e
        cases hm
        refine ⟨h1, fun S'' hle => ⟨(e4 S'' hle).1, (e4 S'' hle).2.1⟩, S₀, f1, (f4 S₀ (Storage.Le.refl _)).1, ?_⟩
        rw [(e4 S' (Storage.Le.refl _)).2.2, (f4 S₀ (Storage.Le.refl _)).2.2]
      · obtain ⟨g1, g2, g3⟩ := hg c' m' hm
        exact ⟨g1, fun S'' hle => g2 S'' (e2.trans hle), g3⟩
    · rw [find_cons hF, if_pos rfl]

theorem makeAll_ok {α : Type} (K : Codec α) (b : BvKind) {T sa : List Nat} (hT : IsText T) (hsa : IsSA T sa) {C : Cache}
    (hF : Function.Injective F.ord) {types : List IndexType} (hn : NoClash types) (ht : ∀ e, itemsOf (F.cls e) ∈ types) :
    ∀ (l : List F.Request) (st : F.State), Inv K b T sa C types st → (∀ c ∈ l, HasFiles C b T sa (F.cls c.type) c.samplingSize) →
    ∃ ms st', F.makeAll K b C l st = some (ms, st') ∧ Inv K b T sa C types st' ∧ st'.n = st.n ∧
      (∀ c' m', find st.indexes c' = some m' → find st'.indexes c' = some m') ∧ ms.length = l.length ∧
      ∀ (i : Nat) (c : F.Request), l[i]? = some c → ∃ m, ms[i]? = some m ∧ find st'.indexes c = some m
  | [], st, hi, _ => ⟨[], st, rfl, hi, rfl, fun _ _ h => h, rfl, fun i c h => by simp at h⟩
  | c :: l, st, hi, hC => by
    obtain ⟨m, st1, e1, e2, e3, e4, e5⟩ := make_ok K b hT hsa hF hn ht hi c (hC c (by simp))
    obtain ⟨ms, st2, f1, f2, f3, f4, f5, f6⟩ := makeAll_ok K b hT hsa hF hn ht l st1 e2 (fun x hx => hC x (by simp [hx]))
    refine ⟨m :: ms, st2, ?_, f2, f3.trans e3, fun c' m' h => f4 _ _ (e5 _ _ h), by simp [f5], ?_⟩
    · simp only [makeAll, e1, f1, Option.bind_eq_bind, Option.bind_some, Option.pure_def]
    · intro i c' hi
      cases i with
      | zero =>
        simp only [List.getElem?_cons_zero, Option.some.injEq] at hi
        subst hi
        exact ⟨m, rfl, f4 _ _ e4⟩
      | succ i =>
        simp only [List.getElem?_cons_succ] at hi ⊢
        exact f6 i c' hi

end

end FactoryKind
end Sri
