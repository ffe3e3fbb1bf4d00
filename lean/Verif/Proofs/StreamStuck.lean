import Verif.Proofs.ObjectLoad
/-! # Streams that are read out of step -/
namespace Sri
set_option autoImplicit false

/-- the supports of sd_vector, which are written as nothing -/
def ItemType.noBytes : ItemType → Bool
  | .sdRank | .sdSelect => true
  | _ => false

/-- an item that has been written is not taken for an item of another type. The bytes of sdsl carry no type: what `load` of one type makes of the
    bytes of another is outside every contract, and the outcome `none` (a fault) stands for it, as everywhere in the model. -/
def Codec.Typed {α : Type} (K : Codec α) : Prop :=
  ∀ (x : Item) (ty : ItemType) (rest : List α), ty ≠ x.type → x.type.noBytes = false → ty.noBytes = false → K.dec ty (K.enc x ++ rest) = none

section
variable {α : Type} {K : Codec α} {keys : Slot → Key}

theorem Storage.get_cons_other {S : Storage} {k : Key} {x : Item} (h : S.find k = none) {ty : ItemType} (ht : x.type ≠ ty) (k' : Key) :
    Storage.get ((k, x) :: S) ty k' = S.get ty k' := by
  unfold Storage.get
  rw [Storage.find_cons]
  by_cases e : k' = k
  · subst e; rw [h]; simp [ht]
  · rw [if_neg e]

theorem setVector_type (bv : List Bool) (x : Item) : (x.setVector bv).type = x.type := by cases x <;> rfl

/-- reading a support of an sd_vector takes nothing from the stream -/
theorem dec_noBytes {V : Item → Prop} (hK : K.FaithfulOn V) (hV : ∀ o, V (.sdRank o) ∧ V (.sdSelect o)) {ty : ItemType} (h : ty.noBytes = true)
    (l : List α) : ∃ x, K.dec ty l = some (x, l) ∧ x.type = ty := by
  cases ty <;> first | (cases h; done) | skip
  · have := hK.item (.sdRank none) l (hV none).1
    rw [hK.sdRank, List.nil_append] at this
    exact ⟨_, this, rfl⟩
  · have := hK.item (.sdSelect none) l (hV none).2
    rw [hK.sdSelect, List.nil_append] at this
    exact ⟨_, this, rfl⟩

theorem read_stuck (hT : K.Typed) {x : Item} (hx : x.type.noBytes = false) {ty : ItemType} (h1 : ty ≠ x.type) (h2 : ty.noBytes = false) (rest : List α)
    (k : Key) (hash : Bool) : LoadState.read K (.stream (K.enc x ++ rest)) ty k hash = none := by
  unfold LoadState.read
  simp only [hT x ty rest h1 hx h2, Option.bind_eq_bind, Option.bind_none]

/-- one item, when the stream begins with an item of another type -/
theorem loadItem_stuck (hT : K.Typed) {x : Item} (hx : x.type.noBytes = false) {ty : ItemType} (h1 : ty ≠ x.type) (h2 : ty.noBytes = false) {rest : List α}
    {k : Key} {hash : Bool} {S : Storage} {r : Item × LoadState α}
    (h : LoadState.loadItem K { storage := S, source := .stream (K.enc x ++ rest) } ty k hash = some r) :
    r.2 = { storage := S, source := .stream (K.enc x ++ rest) } ∧ S.get ty k ≠ none := by
  unfold LoadState.loadItem at h
  dsimp only at h
  cases hg : S.get ty k with
  | some y =>
    rw [hg] at h
    simp only [Option.some.injEq] at h
    subst h
    exact ⟨rfl, by simp⟩
  | none =>
    rw [hg] at h
    simp only [read_stuck hT hx h1 h2, Option.bind_eq_bind, Option.bind_none] at h
    cases h

/-- the types of an access -/
def Access.Other (a : Access) (ty : ItemType) : Prop :=
  a.ty ≠ ty ∧ a.ty.noBytes = false ∧ (a.part ≠ .self → a.sty ≠ ty)

theorem runAccess_stuck {V : Item → Prop} (hK : K.FaithfulOn V) (hV : ∀ o, V (.sdRank o) ∧ V (.sdSelect o)) (hT : K.Typed) {x : Item}
    (hx : x.type.noBytes = false) {a : Access} {rest : List α} {S : Storage} {st : LoadState α}
    (ha : a.Other x.type ∨ a.part = .self ∧ S.get a.ty (keys a.slot) ≠ none)
    (h : LoadState.run K keys { storage := S, source := .stream (K.enc x ++ rest) } a = some st) :
    ∃ S', st = { storage := S', source := .stream (K.enc x ++ rest) } ∧ (∀ ty k, ty.noBytes = false → S'.get ty k = S.get ty k) ∧
      (a.target.ty.noBytes = false → S.get a.target.ty (a.target.key keys) ≠ none) := by
  by_cases hp : a.part = .self
  · rw [run_self _ hp, Option.map_eq_some_iff] at h
    obtain ⟨r, h, rfl⟩ := h
    have hkey : S.get a.target.ty (a.target.key keys) = S.get a.ty (keys a.slot) := by
      rw [Access.target_self hp, Access.base_key]; rfl
    rw [hkey]
    by_cases hg : S.get a.ty (keys a.slot) = none
    · obtain ⟨e1, e2⟩ := loadItem_stuck hT hx (ha.resolve_right fun h => h.2 hg).1 (ha.resolve_right fun h => h.2 hg).2.1 h
      exact ⟨S, e1, fun _ _ _ => rfl, fun _ => e2⟩
    · refine ⟨S, ?_, fun _ _ _ => rfl, fun _ => hg⟩
      obtain ⟨y, hy⟩ := Option.ne_none_iff_exists'.1 hg
      unfold LoadState.loadItem at h
      simp only [hy, Option.some.injEq] at h
      rw [← h]
  · have ha := ha.resolve_right fun h => hp h.1
    rw [run_support _ hp, Option.map_eq_some_iff] at h
    obtain ⟨r, h, rfl⟩ := h
    have hkey : S.get a.target.ty (a.target.key keys) = S.get a.sty (keys a.slot ++ a.part.suffix) := by
      rw [target_ty_support hp]; rfl
    rw [hkey, target_ty_support hp]
    unfold LoadState.loadSupport at h
    dsimp only at h
    cases hg : S.get a.sty (keys a.slot ++ a.part.suffix) with
    | some y =>
      rw [hg] at h
      simp only [Option.some.injEq] at h
      subst h
      exact ⟨S, rfl, fun _ _ _ => rfl, fun _ => by simp⟩
    | none =>
      rw [hg] at h
      simp only [Option.bind_eq_bind, Option.bind_eq_some_iff, Option.pure_def] at h
      obtain ⟨⟨b, st1⟩, h1, bv, -, ⟨y, src⟩, hr, z, hz, h⟩ := h
      obtain ⟨rfl, -⟩ := loadItem_stuck hT hx ha.1 ha.2.1 h1
      dsimp only at hr hz h
      cases hn : a.sty.noBytes with
      | false =>
        rw [read_stuck hT hx (ha.2.2 hp) hn] at hr
        cases hr
      | true =>
        obtain ⟨y', e1, e2⟩ := dec_noBytes hK hV hn (K.enc x ++ rest)
        unfold LoadState.read at hr
        simp only [e1, Option.bind_eq_bind, Option.bind_some, Option.pure_def, Option.some.injEq, Prod.mk.injEq] at hr
        obtain ⟨rfl, rfl⟩ := hr
        simp only [Option.some.injEq] at h
        subst h
        refine ⟨_, rfl, ?_, fun h => by cases h⟩
        intro ty k hty
        have hne : (y'.setVector bv).type ≠ ty := by
          rw [setVector_type, e2]; intro e; rw [e, hty] at hn; cases hn
        cases hf : S.find (keys a.slot ++ a.part.suffix) with
        | none => rw [Storage.set_new _ hf]; exact Storage.get_cons_other hf hne k
        | some w => rw [Storage.set_old _ hf]

theorem runAll_stuck {V : Item → Prop} (hK : K.FaithfulOn V) (hV : ∀ o, V (.sdRank o) ∧ V (.sdSelect o)) (hT : K.Typed) {x : Item}
    (hx : x.type.noBytes = false) {rest : List α} : ∀ (as : List Access) {S : Storage} {st : LoadState α},
    (∀ a ∈ as, a.Other x.type ∨ a.part = .self ∧ a.ty.noBytes = false ∧ S.get a.ty (keys a.slot) ≠ none) →
    LoadState.runAll K keys as { storage := S, source := .stream (K.enc x ++ rest) } = some st →
    ∀ a ∈ as, a.target.ty.noBytes = false → S.get a.target.ty (a.target.key keys) ≠ none
  | [], _, _, _, _, a, ha, _ => by cases ha
  | a :: as, S, st, hA, h, b, hb, hn => by
    simp only [LoadState.runAll, Option.bind_eq_bind, Option.bind_eq_some_iff] at h
    obtain ⟨st1, h1, h2⟩ := h
    obtain ⟨S', rfl, e2, e3⟩ := runAccess_stuck hK hV hT hx ((hA a (by simp)).imp_right fun h => ⟨h.1, h.2.2⟩) h1
    rcases List.mem_cons.1 hb with rfl | hb
    · exact e3 hn
    · have := runAll_stuck hK hV hT hx as (fun a ha => by
        rcases hA a (by simp [ha]) with h | ⟨h, h', h''⟩
        · exact Or.inl h
        · exact Or.inr ⟨h, h', by rw [e2 _ _ h']; exact h''⟩) h2 b hb hn
      rwa [e2 _ _ hn] at this

/-! ## Keys that are not touched -/

theorem loadItem_keys {st st' : LoadState α} {ty : ItemType} {k : Key} {hash : Bool} {x : Item}
    (h : LoadState.loadItem K st ty k hash = some (x, st')) {k' : Key} (hne : k' ≠ k) : st'.storage.find k' = st.storage.find k' := by
  unfold LoadState.loadItem at h
  split at h
  · simp only [Option.some.injEq, Prod.mk.injEq] at h; rw [← h.2]
  · simp only [Option.bind_eq_bind, Option.bind_eq_some_iff, Option.pure_def] at h
    obtain ⟨⟨y, src⟩, -, z, -, h⟩ := h
    simp only [Option.some.injEq, Prod.mk.injEq] at h
    rw [← h.2]
    cases hf : st.storage.find k with
    | none => rw [Storage.set_new _ hf]; dsimp only; rw [Storage.find_cons, if_neg hne]
    | some w => rw [Storage.set_old _ hf]

theorem run_keys {st st' : LoadState α} {a : Access} (h : LoadState.run K keys st a = some st') {k : Key} (h1 : k ≠ a.base.key keys)
    (h2 : k ≠ a.target.key keys) : st'.storage.find k = st.storage.find k := by
  rw [Access.base_key] at h1
  by_cases hp : a.part = .self
  · rw [run_self _ hp, Option.map_eq_some_iff] at h
    obtain ⟨⟨x, r⟩, h, rfl⟩ := h
    exact loadItem_keys h h1
  · rw [run_support _ hp, Option.map_eq_some_iff] at h
    obtain ⟨⟨x, r⟩, h, rfl⟩ := h
    unfold LoadState.loadSupport at h
    split at h
    · simp only [Option.some.injEq, Prod.mk.injEq] at h; rw [← h.2]
    · simp only [Option.bind_eq_bind, Option.bind_eq_some_iff, Option.pure_def] at h
      obtain ⟨⟨b, st1⟩, e1, bv, -, ⟨y, src⟩, -, z, -, h⟩ := h
      simp only [Option.some.injEq, Prod.mk.injEq] at h
      rw [← h.2, ← loadItem_keys e1 h1]
      dsimp only
      have h2' : k ≠ keys a.slot ++ a.part.suffix := h2
      cases hf : st1.storage.find (keys a.slot ++ a.part.suffix) with
      | none => rw [Storage.set_new _ hf]; dsimp only; rw [Storage.find_cons, if_neg h2']
      | some w => rw [Storage.set_old _ hf]

theorem runAll_keys : ∀ (as : List Access) {st st' : LoadState α}, LoadState.runAll K keys as st = some st' →
    ∀ {k : Key}, (∀ a ∈ as, k ≠ a.base.key keys ∧ k ≠ a.target.key keys) → st'.storage.find k = st.storage.find k
  | [], _, _, h, _, _ => by simp only [LoadState.runAll, Option.some.injEq] at h; rw [h]
  | a :: as, st, st', h, k, hk => by
    simp only [LoadState.runAll, Option.bind_eq_bind, Option.bind_eq_some_iff] at h
    obtain ⟨st1, h1, h2⟩ := h
    rw [runAll_keys as h2 fun b hb => hk b (by simp [hb]), run_keys h1 (hk a (by simp)).1 (hk a (by simp)).2]

theorem runAll_append (as bs : List Access) (st : LoadState α) :
    LoadState.runAll K keys (as ++ bs) st = (LoadState.runAll K keys as st).bind (LoadState.runAll K keys bs) := by
  induction as generalizing st with
  | nil => rfl
  | cons a as ih =>
    simp only [List.cons_append, LoadState.runAll, Option.bind_eq_bind]
    cases LoadState.run K keys st a with
    | none => rfl
    | some s => exact ih s

end

/-! ## The accesses of an index -/

theorem accesses_other (t : IndexType) (b : BvKind) : ∀ a ∈ accesses t b,
    (a.ty ≠ .alphabet ∧ a.ty.noBytes = false ∧ (a.part ≠ .self → a.sty ≠ .alphabet)) ∨
    a.part = .self ∧ a.ty.noBytes = false ∧ a.ty = .alphabet ∧ a.slot = .alphabet := by
  cases t <;> cases b <;> decide +kernel

/-- with a plain bit vector for the samples, SrCSA writes the select support of the sampled positions where it reads the valid marks -/
theorem accesses_plain (t : IndexType) (h : (t.overPositions && t.withMarks) = true) :
    ∃ as bs ws, accesses t .plain = as ++ ⟨.validMarks, .self, .bitVector, .bitVector, true⟩ :: bs ∧
      writes t .plain = readOrder [] as ++ ⟨.samplesIdx, .select, .bitSelect1⟩ :: ws ∧
      (∀ a ∈ as, a ∈ accesses t .plain) ∧ (∀ a ∈ as, a.base ∈ writes t .plain ∧ a.target ∈ writes t .plain ∧ a.base.slot ≠ .validMarks) := by
  have ha : accesses t .plain = (accesses t .plain).take 9 ++ ⟨.validMarks, .self, .bitVector, .bitVector, true⟩ :: (accesses t .plain).drop 10 := by
    revert h; cases t <;> decide +kernel
  have hw : writes t .plain = readOrder [] ((accesses t .plain).take 9) ++ ⟨.samplesIdx, .select, .bitSelect1⟩ :: (writes t .plain).drop 10 := by
    revert h; cases t <;> decide +kernel
  refine ⟨_, _, _, ha, hw, fun a h => List.mem_of_mem_take h, ?_⟩
  revert h; cases t <;> decide +kernel

/-- load(in) of a stream of an index, on a storage that has the alphabet but not all other items -/
theorem loadInner_stuck {α : Type} {K : Codec α} {V : Item → Prop} (hK : K.FaithfulOn V) (hV : ∀ o, V (.sdRank o) ∧ V (.sdSelect o)) (hT : K.Typed)
    (J : Object) {x : Item} (hx : x.type = .alphabet) {S : Storage} (ha : S.get .alphabet (keyOf J.type J.pre .alphabet) ≠ none)
    {w : Write} (hw : w ∈ writes J.type J.bv) (hn : w.ty.noBytes = false) (hm : S.get w.ty (w.key (keyOf J.type J.pre)) = none) (rest : List α) :
    J.loadInner K { storage := S, source := .stream (K.enc x ++ rest) } = none := by
  unfold Object.loadInner
  simp only [Option.bind_eq_bind, Option.pure_def, Option.bind_eq_none_iff]
  intro st hst
  exfalso
  obtain ⟨a, ha', rfl⟩ := List.mem_map.1 (writes_accessed _ _ _ hw)
  refine runAll_stuck hK hV hT (x := x) (by rw [hx]; rfl) (accesses J.type J.bv) ?_ hst a ha' hn hm
  intro a ha'
  rcases accesses_other _ _ _ ha' with h | ⟨h1, h2, h3, h4⟩
  · left; rw [hx]; exact h
  · right; exact ⟨h1, h2, by rw [h3, h4]; exact ha⟩

/-- load(in) of a stream of an index over SrCSA with validity information and plain bit vectors -/
theorem loadInner_plain {α : Type} {K : Codec α} {V : Item → Prop} (hK : K.FaithfulOn V) (hT : K.Typed) (J : Object) (hb : J.bv = .plain)
    (ht : (J.type.overPositions && J.type.withMarks) = true) {p : Parts} (hp : p.WF J.type) (hV : ∀ w ∈ writes J.type .plain, V (itemOf .plain p w))
    {S : Storage} (hS : ∀ w ∈ writes J.type .plain, S.find (w.key (keyOf J.type J.pre)) = none) (rest : List α) :
    J.loadInner K { storage := S, source := .stream ((writes J.type .plain).flatMap (fun w => K.enc (itemOf .plain p w)) ++ rest) } = none := by
  obtain ⟨as, bs, ws, h1, h2, h3, h4⟩ := accesses_plain J.type ht
  have hvm : (⟨.validMarks, .self, .bitVector⟩ : Write) ∈ writes J.type .plain := by
    revert ht; generalize J.type = t; cases t <;> decide +kernel
  obtain ⟨S', e1, -⟩ := runAll_stream hK (coherent_items hp.nav J.pre) hV as [] (K.enc (itemOf .plain p ⟨.samplesIdx, .select, .bitSelect1⟩) ++
    (ws.flatMap (fun w => K.enc (itemOf .plain p w)) ++ rest)) (fun a ha => accesses_fit J.type .plain p a (h3 a ha)) (S := S)
    (by intro w hw; rw [if_neg (by simp)]; exact hS w hw)
  have hf : S'.find (keyOf J.type J.pre .validMarks) = none := by
    have := runAll_keys as e1 (k := Write.key ⟨.validMarks, .self, .bitVector⟩ (keyOf J.type J.pre)) fun a ha => by
      obtain ⟨g1, g2, g3⟩ := h4 a ha
      exact ⟨fun e => g3 (congrArg Write.slot (writes_key_inj _ _ _ _ hvm _ g1 e)).symm,
        fun e => g3 (congrArg Write.slot (writes_key_inj _ _ _ _ hvm _ g2 e)).symm⟩
    dsimp only at this
    rw [hS _ hvm] at this
    simpa [Write.key, Part.suffix] using this
  have hrun : LoadState.runAll K (keyOf J.type J.pre) (accesses J.type .plain)
      { storage := S, source := .stream ((writes J.type .plain).flatMap (fun w => K.enc (itemOf .plain p w)) ++ rest) } = none := by
    rw [h1, h2, List.flatMap_append, List.flatMap_cons, List.append_assoc, List.append_assoc, runAll_append, e1, Option.bind_some]
    simp only [LoadState.runAll, Option.bind_eq_bind]
    rw [run_self _ rfl]
    unfold LoadState.loadItem
    dsimp only
    rw [Storage.get_none hf]
    dsimp only
    rw [read_stuck hT (x := itemOf .plain p ⟨.samplesIdx, .select, .bitSelect1⟩) rfl (show ItemType.bitVector ≠ .bitSelect1 by decide) rfl]
    rfl
  unfold Object.loadInner
  rw [hb]
  change Option.bind (LoadState.runAll K (keyOf J.type J.pre) (accesses J.type .plain) _) _ = none
  rw [hrun]
  rfl

end Sri
