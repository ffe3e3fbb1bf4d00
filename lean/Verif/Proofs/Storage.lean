import Verif.Model.Objects
/-! # Loading and serializing items -/
namespace Sri
set_option autoImplicit false

/-! ## Storage -/

theorem Storage.find_cons (S : Storage) (k k' : Key) (x : Item) :
    Storage.find ((k, x) :: S) k' = if k' = k then some x else S.find k' := by
  unfold Storage.find
  rw [List.lookup_cons]
  by_cases h : k' = k
  · subst h; simp
  · have : (k' == k) = false := by simpa using h
    rw [this, if_neg h]

theorem Storage.get_of_find {S : Storage} {k : Key} {x : Item} (h : S.find k = some x) : S.get x.type k = some x := by
  unfold Storage.get; rw [h]; simp

theorem Storage.get_none {S : Storage} {k : Key} {ty : ItemType} (h : S.find k = none) : S.get ty k = none := by
  unfold Storage.get; rw [h]

theorem Storage.get_eq_some {S : Storage} {k : Key} {ty : ItemType} {x : Item} : S.get ty k = some x ↔ S.find k = some x ∧ x.type = ty := by
  unfold Storage.get
  cases h : S.find k with
  | none => simp
  | some y =>
    simp only [Option.some.injEq]
    split <;> rename_i hy
    · constructor
      · rintro ⟨⟩; exact ⟨rfl, hy⟩
      · rintro ⟨h, -⟩; rw [h]
    · constructor
      · intro h; cases h
      · rintro ⟨rfl, h⟩; exact absurd h hy

theorem Storage.set_new {S : Storage} {k : Key} (x : Item) (h : S.find k = none) : S.set k x = ((k, x) :: S, some x) := by
  unfold Storage.set; rw [h]

theorem Storage.set_old {S : Storage} {k : Key} (x : Item) {y : Item} (h : S.find k = some y) :
    S.set k x = (S, if y.type = x.type then some y else none) := by
  unfold Storage.set; rw [h]

/-- nothing that a storage holds is lost or changed -/
def Storage.Le (S S' : Storage) : Prop := ∀ k x, S.find k = some x → S'.find k = some x

theorem Storage.Le.refl (S : Storage) : S.Le S := fun _ _ h => h
theorem Storage.Le.trans {A B C : Storage} (h : A.Le B) (h' : B.Le C) : A.Le C := fun k x hx => h' k x (h k x hx)

theorem Storage.set_le (S : Storage) (k : Key) (x : Item) : S.Le (S.set k x).1 := by
  intro k' y hy
  cases h : S.find k with
  | none =>
    rw [Storage.set_new x h, Storage.find_cons]
    split
    · rename_i e; subst e; rw [h] at hy; cases hy
    · exact hy
  | some z => rw [Storage.set_old x h]; exact hy

theorem Storage.Le.get {S S' : Storage} (h : S.Le S') {ty : ItemType} {k : Key} {x : Item} (hx : S.get ty k = some x) : S'.get ty k = some x := by
  rw [Storage.get_eq_some] at hx ⊢
  exact ⟨h _ _ hx.1, hx.2⟩

/-! ## Codecs -/

/-- for the items of `V`, reading gives back what was written, without the vector of a support, and leaves the rest; the supports of sd_vector
    are written as nothing (sdsl's serialize_empty_object) -/
structure Codec.FaithfulOn {α : Type} (K : Codec α) (V : Item → Prop) : Prop where
  item : ∀ (x : Item) (rest : List α), V x → K.dec x.type (K.enc x ++ rest) = some (x.unbound, rest)
  size : ∀ (s : Nat) (rest : List α), K.decSize (K.encSize s ++ rest) = some (s, rest)
  sdRank : ∀ o, K.enc (.sdRank o) = []
  sdSelect : ∀ o, K.enc (.sdSelect o) = []

/-- the same for all items -/
abbrev Codec.Faithful {α : Type} (K : Codec α) : Prop := K.FaithfulOn (fun _ => True)

/-! ## One access -/

theorem loadItem_le {α : Type} {K : Codec α} {st st' : LoadState α} {ty : ItemType} {k : Key} {hash : Bool} {x : Item}
    (h : LoadState.loadItem K st ty k hash = some (x, st')) : st.storage.Le st'.storage := by
  unfold LoadState.loadItem at h
  split at h
  · simp only [Option.some.injEq, Prod.mk.injEq] at h; rw [← h.2]; exact Storage.Le.refl _
  · simp only [Option.bind_eq_bind, Option.bind_eq_some_iff, Option.pure_def] at h
    obtain ⟨⟨y, src⟩, -, z, -, h⟩ := h
    simp only [Option.some.injEq, Prod.mk.injEq] at h
    rw [← h.2]; exact Storage.set_le _ _ _

theorem loadSupport_le {α : Type} {K : Codec α} {st st' : LoadState α} {suffix : Key} {ty sty : ItemType} {k : Key} {hash : Bool} {x : Item}
    (h : LoadState.loadSupport K st suffix ty sty k hash = some (x, st')) : st.storage.Le st'.storage := by
  unfold LoadState.loadSupport at h
  split at h
  · simp only [Option.some.injEq, Prod.mk.injEq] at h; rw [← h.2]; exact Storage.Le.refl _
  · simp only [Option.bind_eq_bind, Option.bind_eq_some_iff, Option.pure_def] at h
    obtain ⟨⟨b, st1⟩, h1, bv, -, ⟨y, src⟩, -, z, -, h⟩ := h
    simp only [Option.some.injEq, Prod.mk.injEq] at h
    rw [← h.2]; exact (loadItem_le h1).trans (Storage.set_le _ _ _)

theorem run_le {α : Type} {K : Codec α} {keys : Slot → Key} {st st' : LoadState α} {a : Access}
    (h : LoadState.run K keys st a = some st') : st.storage.Le st'.storage := by
  unfold LoadState.run at h
  split at h <;> simp only [Option.bind_eq_bind, Option.bind_eq_some_iff, Option.pure_def, Option.some.injEq] at h
  · obtain ⟨⟨x, st1⟩, h1, rfl⟩ := h; exact loadItem_le h1
  · obtain ⟨⟨x, st1⟩, h1, rfl⟩ := h; exact loadSupport_le h1

theorem runAll_le {α : Type} {K : Codec α} {keys : Slot → Key} : ∀ (as : List Access) {st st' : LoadState α},
    LoadState.runAll K keys as st = some st' → st.storage.Le st'.storage
  | [], st, st', h => by simp only [LoadState.runAll, Option.some.injEq] at h; rw [h]; exact Storage.Le.refl _
  | a :: as, st, st', h => by
    simp only [LoadState.runAll, Option.bind_eq_bind, Option.bind_eq_some_iff] at h
    obtain ⟨st1, h1, h2⟩ := h
    exact (run_le h1).trans (runAll_le as h2)

/-- what an access leaves in the storage -/
def Access.target (a : Access) : Write := ⟨a.slot, a.part, if a.part = .self then a.ty else a.sty⟩

/-- the bit vector that an access to a support needs -/
def Access.base (a : Access) : Write := ⟨a.slot, .self, a.ty⟩

/-- storage key of an item -/
def Write.key (w : Write) (keys : Slot → Key) : Key := keys w.slot ++ w.part.suffix

theorem Access.base_key (a : Access) (keys : Slot → Key) : a.base.key keys = keys a.slot := by simp [Access.base, Write.key, Part.suffix]

/-- what the items `E` of an index must satisfy for its accesses to make sense -/
structure Coherent (E : List Write) (keys : Slot → Key) (val : Write → Item) : Prop where
  type : ∀ w ∈ E, (val w).type = w.ty
  inj : ∀ w ∈ E, ∀ w' ∈ E, w.key keys = w'.key keys → w = w'
  plain : ∀ w ∈ E, w.part = .self → (val w).unbound = val w

/-- the access `a` is to items of `E`, and its support is one of its bit vector -/
structure Access.Fits (a : Access) (E : List Write) (val : Write → Item) : Prop where
  target : a.target ∈ E
  base : a.base ∈ E
  support : a.part ≠ .self → ∃ bv, (val a.base).bits = some bv ∧ ((val a.target).unbound).setVector bv = val a.target

section
variable {α : Type} {K : Codec α} {E : List Write} {keys : Slot → Key} {val : Write → Item}

theorem Access.target_self {a : Access} (h : a.part = .self) : a.target = a.base := by
  simp [Access.target, Access.base, h]

/-- what reading an item of `E` from the source gives -/
def Reads (K : Codec α) (src : Source α) (w : Write) (k : Key) (hash : Bool) (val : Write → Item) (src' : Source α) : Prop :=
  LoadState.read K src w.ty k hash = some ((val w).unbound, src')

/-- an absent item is read and stored -/
theorem loadItem_new (hE : Coherent E keys val) {a : Access} (ha : a.base ∈ E) {st : LoadState α} {src' : Source α}
    (hf : st.storage.find (a.base.key keys) = none) (hr : Reads K st.source a.base (keys a.slot) a.hash val src') :
    LoadState.loadItem K st a.ty (keys a.slot) a.hash =
      some (val a.base, { storage := (a.base.key keys, val a.base) :: st.storage, source := src' }) := by
  rw [Access.base_key] at hf
  unfold LoadState.loadItem
  rw [Storage.get_none hf]
  have hr' : LoadState.read K st.source a.ty (keys a.slot) a.hash = some ((val a.base).unbound, src') := hr
  simp only [hr', Option.bind_eq_bind, Option.bind_some, Option.pure_def, Storage.set_new _ hf, hE.plain _ ha rfl, Access.base_key]

/-- a present item is left alone -/
theorem loadItem_old (hE : Coherent E keys val) {a : Access} (ha : a.base ∈ E) {st : LoadState α}
    (hf : st.storage.find (a.base.key keys) = some (val a.base)) :
    LoadState.loadItem K st a.ty (keys a.slot) a.hash = some (val a.base, st) := by
  have := Storage.get_of_find hf
  rw [hE.type _ ha, Access.base_key] at this
  unfold LoadState.loadItem
  rw [show a.ty = a.base.ty from rfl, this]

theorem run_self (st : LoadState α) {a : Access} (h : a.part = .self) :
    LoadState.run K keys st a = (LoadState.loadItem K st a.ty (keys a.slot) a.hash).map (·.2) := by
  unfold LoadState.run; rw [h]; cases LoadState.loadItem K st a.ty (keys a.slot) a.hash <;> rfl

theorem run_support (st : LoadState α) {a : Access} (h : a.part ≠ .self) :
    LoadState.run K keys st a = (LoadState.loadSupport K st a.part.suffix a.ty a.sty (keys a.slot) a.hash).map (·.2) := by
  unfold LoadState.run
  cases hp : a.part with
  | self => exact absurd hp h
  | rank =>
    dsimp only
    cases LoadState.loadSupport K st Part.rank.suffix a.ty a.sty (keys a.slot) a.hash <;> rfl
  | select =>
    dsimp only
    cases LoadState.loadSupport K st Part.select.suffix a.ty a.sty (keys a.slot) a.hash <;> rfl

theorem target_ty_support {a : Access} (h : a.part ≠ .self) : a.target.ty = a.sty := by simp [Access.target, h]

/-- an access whose target is present does nothing -/
theorem run_present (hE : Coherent E keys val) {a : Access} (ha : a.Fits E val) {st : LoadState α}
    (hf : st.storage.find (a.target.key keys) = some (val a.target)) : LoadState.run K keys st a = some st := by
  by_cases hp : a.part = .self
  · rw [Access.target_self hp] at hf
    rw [run_self st hp, loadItem_old hE ha.base hf]; rfl
  · have := Storage.get_of_find hf
    rw [hE.type _ ha.target, target_ty_support hp] at this
    rw [run_support st hp]
    unfold LoadState.loadSupport
    rw [show keys a.slot ++ a.part.suffix = a.target.key keys from rfl, this]; rfl

/-- an access to an absent item reads it -/
theorem run_item (hE : Coherent E keys val) {a : Access} (ha : a.Fits E val) (hp : a.part = .self) {st : LoadState α} {src' : Source α}
    (hf : st.storage.find (a.target.key keys) = none) (hr : Reads K st.source a.target (keys a.slot) a.hash val src') :
    LoadState.run K keys st a = some { storage := (a.target.key keys, val a.target) :: st.storage, source := src' } := by
  rw [Access.target_self hp] at hf hr ⊢
  rw [run_self st hp, loadItem_new hE ha.base hf hr]; rfl

/-- an access to an absent support of a present bit vector reads the support -/
theorem run_support_new (hE : Coherent E keys val) {a : Access} (ha : a.Fits E val) (hp : a.part ≠ .self) {st : LoadState α} {src' : Source α}
    (hf : st.storage.find (a.target.key keys) = none) (hb : st.storage.find (a.base.key keys) = some (val a.base))
    (hr : Reads K st.source a.target (keys a.slot) a.hash val src') :
    LoadState.run K keys st a = some { storage := (a.target.key keys, val a.target) :: st.storage, source := src' } := by
  obtain ⟨bv, h1, h2⟩ := ha.support hp
  rw [run_support st hp]
  unfold LoadState.loadSupport
  have hr' : LoadState.read K st.source a.sty (keys a.slot) a.hash = some ((val a.target).unbound, src') := by
    rw [← target_ty_support hp]; exact hr
  rw [show keys a.slot ++ a.part.suffix = a.target.key keys from rfl, Storage.get_none hf]
  simp only [loadItem_old hE ha.base hb, h1, hr', h2, Storage.set_new _ hf, Option.bind_eq_bind, Option.bind_some, Option.pure_def, Option.map_some]

/-- an access to an absent support of an absent bit vector reads both -/
theorem run_support_both (hE : Coherent E keys val) {a : Access} (ha : a.Fits E val) (hp : a.part ≠ .self) {st : LoadState α}
    {src' src'' : Source α}
    (hf : st.storage.find (a.target.key keys) = none) (hb : st.storage.find (a.base.key keys) = none)
    (hr : Reads K st.source a.base (keys a.slot) a.hash val src') (hr2 : Reads K src' a.target (keys a.slot) a.hash val src'') :
    LoadState.run K keys st a =
      some { storage := (a.target.key keys, val a.target) :: (a.base.key keys, val a.base) :: st.storage, source := src'' } := by
  obtain ⟨bv, h1, h2⟩ := ha.support hp
  have hne : a.target.key keys ≠ a.base.key keys := by
    intro e
    have := congrArg Write.part (hE.inj _ ha.target _ ha.base e)
    exact hp this
  rw [run_support st hp]
  unfold LoadState.loadSupport
  have hr' : LoadState.read K src' a.sty (keys a.slot) a.hash = some ((val a.target).unbound, src'') := by
    rw [← target_ty_support hp]; exact hr2
  rw [show keys a.slot ++ a.part.suffix = a.target.key keys from rfl, Storage.get_none hf]
  have hf' : Storage.find ((a.base.key keys, val a.base) :: st.storage) (a.target.key keys) = none := by
    rw [Storage.find_cons, if_neg hne]; exact hf
  simp only [loadItem_new hE ha.base hb hr, h1, hr', h2, Storage.set_new _ hf', Option.bind_eq_bind, Option.bind_some, Option.pure_def,
    Option.map_some]

/-! ## Loading from a cache -/

/-- the cache holds the items of the access -/
structure Access.Cached (a : Access) (C : Cache) (keys : Slot → Key) (val : Write → Item) : Prop where
  target : C (keys a.slot) (if a.hash then some a.target.ty else none) = some (val a.target).unbound
  base : C (keys a.slot) (if a.hash then some a.base.ty else none) = some (val a.base).unbound

theorem unbound_type (x : Item) : x.unbound.type = x.type := by cases x <;> rfl

theorem reads_cache (C : Cache) (w : Write) (hw : (val w).type = w.ty) (k : Key) (hash : Bool)
    (h : C k (if hash then some w.ty else none) = some (val w).unbound) : Reads K (.cache C) w k hash val (.cache C) := by
  unfold Reads LoadState.read
  simp only [h, Option.bind_eq_bind, Option.bind_some, Option.pure_def, unbound_type, hw, decide_true, assertC, if_true]

/-- every item of `E` that the storage holds is the right one -/
def Consistent (E : List Write) (keys : Slot → Key) (val : Write → Item) (S : Storage) : Prop :=
  ∀ w ∈ E, S.find (w.key keys) = none ∨ S.find (w.key keys) = some (val w)

theorem consistent_cons (hE : Coherent E keys val) {S : Storage} (hS : Consistent E keys val S) {w : Write} (hw : w ∈ E) :
    Consistent E keys val ((w.key keys, val w) :: S) := by
  intro w' hw'
  rw [Storage.find_cons]
  split
  · rename_i e; right; rw [hE.inj _ hw' _ hw e]
  · exact hS w' hw'

/-- what a load can add to a storage -/
def Added (E : List Write) (keys : Slot → Key) (val : Write → Item) (S S' : Storage) : Prop :=
  ∀ k x, S'.find k = some x → S.find k = some x ∨ ∃ w ∈ E, k = w.key keys ∧ x = val w

theorem added_cons {S S' : Storage} {w : Write} (hw : w ∈ E) (h : Added E keys val S S') :
    Added E keys val S ((w.key keys, val w) :: S') := by
  intro k x hx
  rw [Storage.find_cons] at hx
  split at hx
  · rename_i e; right; exact ⟨w, hw, e, (Option.some.inj hx).symm⟩
  · exact h k x hx

theorem added_refl (S : Storage) : Added E keys val S S := fun _ _ h => Or.inl h

theorem le_cons {S : Storage} {k : Key} {x : Item} (h : S.find k = none) : S.Le ((k, x) :: S) := by
  have := Storage.set_le S k x
  rwa [Storage.set_new x h] at this

theorem run_cached (hE : Coherent E keys val) {C : Cache} {a : Access} (ha : a.Fits E val) (hc : a.Cached C keys val) {S : Storage}
    (hS : Consistent E keys val S) :
    ∃ S', LoadState.run K keys { storage := S, source := .cache C } a = some { storage := S', source := .cache C } ∧
      Consistent E keys val S' ∧ Added E keys val S S' ∧ S'.find (a.target.key keys) = some (val a.target) := by
  have rt : Reads K (.cache C) a.target (keys a.slot) a.hash val (.cache C) := reads_cache C _ (hE.type _ ha.target) _ _ hc.target
  have rb : Reads K (.cache C) a.base (keys a.slot) a.hash val (.cache C) := reads_cache C _ (hE.type _ ha.base) _ _ hc.base
  rcases hS _ ha.target with hf | hf
  · by_cases hp : a.part = .self
    · refine ⟨_, run_item hE ha hp hf rt, consistent_cons hE hS ha.target, added_cons ha.target (added_refl _), ?_⟩
      rw [Storage.find_cons, if_pos rfl]
    · rcases hS _ ha.base with hb | hb
      · refine ⟨_, run_support_both hE ha hp hf hb rb rt, consistent_cons hE (consistent_cons hE hS ha.base) ha.target,
          added_cons ha.target (added_cons ha.base (added_refl _)), ?_⟩
        rw [Storage.find_cons, if_pos rfl]
      · refine ⟨_, run_support_new hE ha hp hf hb rt, consistent_cons hE hS ha.target, added_cons ha.target (added_refl _), ?_⟩
        rw [Storage.find_cons, if_pos rfl]
  · exact ⟨S, run_present hE ha hf, hS, added_refl _, hf⟩

theorem added_trans {A B C : Storage} (h : Added E keys val A B) (h' : Added E keys val B C) : Added E keys val A C := by
  intro k x hx
  rcases h' k x hx with h1 | h1
  · exact h k x h1
  · exact Or.inr h1

theorem runAll_cached (hE : Coherent E keys val) {C : Cache} : ∀ (as : List Access), (∀ a ∈ as, a.Fits E val) →
    (∀ a ∈ as, a.Cached C keys val) → ∀ {S : Storage}, Consistent E keys val S →
    ∃ S', LoadState.runAll K keys as { storage := S, source := .cache C } = some { storage := S', source := .cache C } ∧
      Consistent E keys val S' ∧ Added E keys val S S' ∧ ∀ a ∈ as, S'.find (a.target.key keys) = some (val a.target)
  | [], _, _, S, hS => ⟨S, rfl, hS, added_refl _, fun a ha => by cases ha⟩
  | a :: as, hf, hc, S, hS => by
    obtain ⟨S1, h1, c1, a1, t1⟩ := run_cached (K := K) hE (hf a (by simp)) (hc a (by simp)) hS
    obtain ⟨S2, h2, c2, a2, t2⟩ := runAll_cached hE as (fun b hb => hf b (by simp [hb])) (fun b hb => hc b (by simp [hb])) c1
    refine ⟨S2, ?_, c2, added_trans a1 a2, ?_⟩
    · simp only [LoadState.runAll, h1, Option.bind_eq_bind, Option.bind_some, h2]
    · intro b hb
      rcases List.mem_cons.1 hb with rfl | hb
      · exact runAll_le _ h2 _ _ t1
      · exact t2 b hb

/-! ## Loading over present items -/

theorem runAll_present (hE : Coherent E keys val) : ∀ (as : List Access), (∀ a ∈ as, a.Fits E val) → ∀ {st : LoadState α},
    (∀ w ∈ E, st.storage.find (w.key keys) = some (val w)) → LoadState.runAll K keys as st = some st
  | [], _, _, _ => rfl
  | a :: as, hf, st, hS => by
    simp only [LoadState.runAll, run_present hE (hf a (by simp)) (hS _ (hf a (by simp)).target), Option.bind_eq_bind, Option.bind_some]
    exact runAll_present hE as (fun b hb => hf b (by simp [hb])) hS

/-! ## Loading from a stream -/

/-- the items that a sequence of accesses reads, when the items `seen` are present -/
def readOrder : List Write → List Access → List Write
  | _, [] => []
  | seen, a :: as =>
    if a.target ∈ seen then readOrder seen as
    else if a.part = .self ∨ a.base ∈ seen then a.target :: readOrder (a.target :: seen) as
    else a.base :: a.target :: readOrder (a.target :: a.base :: seen) as

theorem reads_stream {V : Item → Prop} (hK : K.FaithfulOn V) (w : Write) (hv : V (val w)) (hw : (val w).type = w.ty) (k : Key) (hash : Bool) (rest : List α) :
    Reads K (.stream (K.enc (val w) ++ rest)) w k hash val (.stream rest) := by
  unfold Reads LoadState.read
  have := hK.item (val w) rest hv
  rw [hw] at this
  simp only [this, Option.bind_eq_bind, Option.bind_some, Option.pure_def]

theorem runAll_stream {V : Item → Prop} (hK : K.FaithfulOn V) (hE : Coherent E keys val) (hV : ∀ w ∈ E, V (val w)) : ∀ (as : List Access) (seen : List Write) (rest : List α),
    (∀ a ∈ as, a.Fits E val) → ∀ {S : Storage}, (∀ w ∈ E, S.find (w.key keys) = if w ∈ seen then some (val w) else none) →
    ∃ S', LoadState.runAll K keys as { storage := S, source := .stream ((readOrder seen as).flatMap (fun w => K.enc (val w)) ++ rest) } =
        some { storage := S', source := .stream rest } ∧ ∀ a ∈ as, S'.find (a.target.key keys) = some (val a.target)
  | [], seen, rest, _, S, _ => ⟨S, rfl, fun a ha => by cases ha⟩
  | a :: as, seen, rest, hf, S, hS => by
    have fa := hf a (by simp)
    have fas : ∀ b ∈ as, b.Fits E val := fun b hb => hf b (by simp [hb])
    have step : ∀ {seen' : List Write} {S1 : Storage} {bytes : List α},
        LoadState.run K keys { storage := S, source := .stream bytes } a =
          some { storage := S1, source := .stream ((readOrder seen' as).flatMap (fun w => K.enc (val w)) ++ rest) } →
        (∀ w ∈ E, S1.find (w.key keys) = if w ∈ seen' then some (val w) else none) → a.target ∈ seen' →
        ∃ S', LoadState.runAll K keys (a :: as) { storage := S, source := .stream bytes } =
          some { storage := S', source := .stream rest } ∧ ∀ b ∈ a :: as, S'.find (b.target.key keys) = some (val b.target) := by
      intro seen' S1 bytes h1 hS1 ht
      obtain ⟨S2, h2, t2⟩ := runAll_stream hK hE hV as seen' rest fas hS1
      refine ⟨S2, ?_, ?_⟩
      · simp only [LoadState.runAll, h1, Option.bind_eq_bind, Option.bind_some, h2]
      · intro b hb
        rcases List.mem_cons.1 hb with rfl | hb
        · exact runAll_le _ h2 _ _ (by rw [hS1 _ fa.target, if_pos ht])
        · exact t2 b hb
    have cons : ∀ {seen' : List Write} {S1 : Storage} (w : Write), w ∈ E →
        (∀ w' ∈ E, S1.find (w'.key keys) = if w' ∈ seen' then some (val w') else none) →
        ∀ w' ∈ E, Storage.find ((w.key keys, val w) :: S1) (w'.key keys) = if w' ∈ w :: seen' then some (val w') else none := by
      intro seen' S1 w hw h1 w' hw'
      rw [Storage.find_cons]
      by_cases e : w'.key keys = w.key keys
      · rw [if_pos e, hE.inj _ hw' _ hw e, if_pos (by simp)]
      · rw [if_neg e, h1 w' hw']
        have : w' ≠ w := fun h => e (by rw [h])
        simp [this]
    by_cases h1 : a.target ∈ seen
    · have e : readOrder seen (a :: as) = readOrder seen as := by rw [readOrder, if_pos h1]
      rw [e]
      exact step (run_present hE fa (by rw [hS _ fa.target, if_pos h1])) hS h1
    · have hft : S.find (a.target.key keys) = none := by rw [hS _ fa.target, if_neg h1]
      by_cases h2 : a.part = .self ∨ a.base ∈ seen
      · have e : readOrder seen (a :: as) = a.target :: readOrder (a.target :: seen) as := by rw [readOrder, if_neg h1, if_pos h2]
        rw [e, List.flatMap_cons, List.append_assoc]
        refine step ?_ (cons a.target fa.target hS) (by simp)
        have rt := reads_stream (K := K) hK a.target (hV _ fa.target) (hE.type _ fa.target) (keys a.slot) a.hash
          ((readOrder (a.target :: seen) as).flatMap (fun w => K.enc (val w)) ++ rest)
        by_cases hp : a.part = .self
        · exact run_item hE fa hp hft rt
        · refine run_support_new hE fa hp hft ?_ rt
          rw [hS _ fa.base, if_pos (h2.resolve_left hp)]
      · rw [not_or] at h2
        have e : readOrder seen (a :: as) = a.base :: a.target :: readOrder (a.target :: a.base :: seen) as := by
          rw [readOrder, if_neg h1, if_neg (by rw [not_or]; exact h2)]
        rw [e, List.flatMap_cons, List.flatMap_cons, List.append_assoc, List.append_assoc]
        refine step ?_ (cons a.target fa.target (cons a.base fa.base hS)) (by simp)
        refine run_support_both hE fa h2.1 hft (by rw [hS _ fa.base, if_neg h2.2])
          (reads_stream hK a.base (hV _ fa.base) (hE.type _ fa.base) (keys a.slot) a.hash _) (reads_stream hK a.target (hV _ fa.target) (hE.type _ fa.target) (keys a.slot) a.hash _)

end
end Sri
