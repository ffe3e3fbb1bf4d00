import Verif.Model.Items
import Verif.Proofs.Storage
/-! # Index objects: what a load leaves in a storage and what it answers -/
namespace Sri
set_option autoImplicit false

/-! ## Keys -/

/-- two (prefixed?, name) pairs that give different keys whatever the prefix -/
def namesApart (x y : Bool × Key) : Bool :=
  match x.1, y.1 with
  | true, false => !x.2.isSuffixOf y.2
  | false, true => !y.2.isSuffixOf x.2
  | _, _ => decide (x.2 ≠ y.2)

def withPrefix (pre : Key) (x : Bool × Key) : Key := if x.1 then pre ++ x.2 else x.2

theorem namesApart_ne {x y : Bool × Key} (h : namesApart x y = true) (pre : Key) : withPrefix pre x ≠ withPrefix pre y := by
  obtain ⟨a, x⟩ := x
  obtain ⟨c, y⟩ := y
  cases a <;> cases c <;> simp only [namesApart, withPrefix, decide_eq_true_eq, Bool.not_eq_true', ne_eq, if_true, Bool.false_eq_true, if_false] at h ⊢
  · exact h
  · intro e
    have : y.isSuffixOf x = true := by rw [List.isSuffixOf_iff_suffix]; exact ⟨pre, e.symm⟩
    rw [this] at h; cases h
  · intro e
    have : x.isSuffixOf y = true := by rw [List.isSuffixOf_iff_suffix]; exact ⟨pre, e⟩
    rw [this] at h; cases h
  · intro e; exact h (List.append_cancel_left e)

/-- prefixed? and full name of the key of an item -/
def Write.name (t : IndexType) (w : Write) : Bool × Key := ((keyName t w.slot).1, (keyName t w.slot).2 ++ w.part.suffix)

theorem Write.key_eq (t : IndexType) (pre : Key) (w : Write) : w.key (keyOf t pre) = withPrefix pre (w.name t) := by
  unfold Write.key keyOf withPrefix Write.name
  dsimp only
  split <;> simp

theorem writes_apart (t : IndexType) (b : BvKind) : ∀ w ∈ writes t b, ∀ w' ∈ writes t b, w = w' ∨ namesApart (w.name t) (w'.name t) = true := by
  cases t <;> cases b <;> decide +kernel

theorem writes_key_inj (t : IndexType) (b : BvKind) (pre : Key) : ∀ w ∈ writes t b, ∀ w' ∈ writes t b,
    w.key (keyOf t pre) = w'.key (keyOf t pre) → w = w' := by
  intro w hw w' hw' e
  rcases writes_apart t b w hw w' hw' with h | h
  · exact h
  · rw [Write.key_eq, Write.key_eq] at e
    exact absurd e (namesApart_ne h pre)

/-! ## Items of an index -/

/-- the items that a class has not are empty, and NAVIGATE has the right type -/
structure Parts.WF (p : Parts) (t : IndexType) : Prop where
  nav : p.nav.type = navTy t
  idx : t.sampled = false → p.samplesIdx = []
  cum : t.counted = false → p.cumRuns = []
  vm : t.withMarks = false → p.validMarks = []
  va : t.withAreas = false → p.validAreas = []

theorem nav_unbound {x : Item} {t : IndexType} (h : x.type = navTy t) : x.unbound = x := by
  unfold navTy at h
  cases x <;> simp [Item.type] at h <;> first | rfl | (split at h <;> cases h)

/-- the type of an item -/
def itemTy (t : IndexType) (b : BvKind) (slot : Slot) (part : Part) : ItemType :=
  match slot, part with
  | .alphabet, _ => .alphabet
  | .navigate, _ => navTy t
  | .marks, .self => .sdVector
  | .marks, .rank => .sdRank
  | .marks, .select => .sdSelect
  | .samplesIdx, .self => b.ty
  | .samplesIdx, .rank => b.rankTy
  | .samplesIdx, .select => b.selectTy
  | .validMarks, .self => .bitVector
  | .validMarks, _ => .bitRank0
  | _, _ => .ints

theorem itemOf_type {t : IndexType} (b : BvKind) {p : Parts} (hp : p.nav.type = navTy t) (w : Write) :
    (itemOf b p w).type = itemTy t b w.slot w.part := by
  obtain ⟨slot, part, ty⟩ := w
  cases slot <;> first | rfl | exact hp | (cases part <;> first | rfl | (cases b <;> rfl))

theorem writes_ty (t : IndexType) (b : BvKind) : ∀ w ∈ writes t b, w.ty = itemTy t b w.slot w.part := by
  cases t <;> cases b <;> decide +kernel

theorem coherent_items {t : IndexType} {b : BvKind} {p : Parts} (hp : p.nav.type = navTy t) (pre : Key) :
    Coherent (writes t b) (keyOf t pre) (itemOf b p) where
  type := by
    intro w hw
    rw [itemOf_type b hp, writes_ty t b w hw]
  inj := writes_key_inj t b pre
  plain := by
    intro w hw hs
    obtain ⟨slot, part, ty⟩ := w
    simp only at hs
    subst hs
    cases slot <;> first | rfl | exact nav_unbound hp | (cases b <;> rfl)

theorem accesses_targets (t : IndexType) (b : BvKind) : ∀ a ∈ accesses t b, a.target ∈ writes t b ∧ a.base ∈ writes t b := by
  cases t <;> cases b <;> decide +kernel

theorem writes_accessed (t : IndexType) (b : BvKind) : ∀ w ∈ writes t b, w ∈ (accesses t b).map Access.target := by
  cases t <;> cases b <;> decide +kernel

/-- the supports that are accessed -/
theorem accesses_supports (t : IndexType) (b : BvKind) : ∀ a ∈ accesses t b, a.part = .self ∨ a.slot = .marks ∨ a.slot = .samplesIdx ∨
    (a.slot = .validMarks ∧ a.part = .rank) := by
  cases t <;> cases b <;> decide +kernel

theorem accesses_fit (t : IndexType) (b : BvKind) (p : Parts) : ∀ a ∈ accesses t b, a.Fits (writes t b) (itemOf b p) := by
  intro a ha
  refine ⟨(accesses_targets t b a ha).1, (accesses_targets t b a ha).2, fun hne => ?_⟩
  obtain ⟨slot, part, ty, sty, hash⟩ := a
  rcases accesses_supports t b _ ha with h | h | h | ⟨h, h'⟩
  · exact absurd h hne
  · simp only at h; subst h
    refine ⟨p.marks, rfl, ?_⟩
    cases part
    · exact absurd rfl hne
    · rfl
    · rfl
  · simp only at h; subst h
    refine ⟨p.samplesIdx, by cases b <;> rfl, ?_⟩
    cases part
    · exact absurd rfl hne
    · cases b <;> rfl
    · cases b <;> rfl
  · simp only at h h'; subst h; subst h'
    exact ⟨p.validMarks, rfl, rfl⟩

/-- serialize writes the items in the order in which load reads them -/
theorem writes_order (t : IndexType) (b : BvKind) (h : (t.overPositions && t.withMarks) = false) : writes t b = readOrder [] (accesses t b) := by
  revert h
  cases t <;> cases b <;> decide +kernel

theorem writes_order_sd (t : IndexType) :
    (writes t .sd).filter (fun w => w.ty ≠ .sdSelect) = (readOrder [] (accesses t .sd)).filter (fun w => w.ty ≠ .sdSelect) := by
  cases t <;> decide +kernel

/-! ## Reading the items back from a storage -/

theorem getInts_eq_some {S : Storage} {k : Key} {l : List Nat} : S.getInts k = some l ↔ S.get .ints k = some (.ints l) := by
  unfold Storage.getInts
  cases h : S.get .ints k with
  | none => simp
  | some x =>
    have := (Storage.get_eq_some.1 h).2
    cases x <;> simp_all [Item.type]

theorem getBits_of {S : Storage} {ty : ItemType} {k : Key} {sup : List (ItemType × Key)} {x : Item} {bv : List Bool}
    (hx : S.get ty k = some x) (hb : x.bits = some bv) (ys : List Item) (hy : sup.mapM (fun q => S.get q.1 q.2) = some ys)
    (hs : ys.all (Item.supports bv) = true) : S.getBits ty k sup = some bv := by
  unfold Storage.getBits
  simp only [hx, hb, hy, hs, assertC, if_true, Option.bind_eq_bind, Option.bind_some, Option.pure_def]

theorem getBits_eq_some {S : Storage} {ty : ItemType} {k : Key} {sup : List (ItemType × Key)} {bv : List Bool} (h : S.getBits ty k sup = some bv) :
    ∃ x, S.get ty k = some x ∧ x.bits = some bv ∧ ∀ q ∈ sup, ∃ y, S.get q.1 q.2 = some y ∧ y.supports bv = true := by
  unfold Storage.getBits at h
  simp only [Option.bind_eq_bind, Option.bind_eq_some_iff, Option.pure_def, assertC] at h
  obtain ⟨x, hx, bv', hb, ys, hy, u, ha, h⟩ := h
  simp only [Option.some.injEq] at h
  subst h
  refine ⟨x, hx, hb, fun q hq => ?_⟩
  have hall : ys.all (Item.supports bv') = true := by
    cases hc : ys.all (Item.supports bv') with
    | true => rfl
    | false => rw [hc] at ha; cases ha
  clear hx hb ha
  induction sup generalizing ys with
  | nil => cases hq
  | cons q' sup ih =>
    simp only [List.mapM_cons, Option.bind_eq_bind, Option.bind_eq_some_iff, Option.pure_def, Option.some.injEq] at hy
    obtain ⟨y, h1, ys', h2, rfl⟩ := hy
    simp only [List.all_cons, Bool.and_eq_true] at hall
    rcases List.mem_cons.1 hq with rfl | hq
    · exact ⟨y, h1, hall.1⟩
    · exact ih ys' h2 hq hall.2

theorem mem_writes {t : IndexType} {b : BvKind} {w : Write} : w ∈ writes t b ↔
    w = ⟨.alphabet, .self, .alphabet⟩ ∨ w = ⟨.navigate, .self, navTy t⟩ ∨ w = ⟨.samples, .self, .ints⟩ ∨ w = ⟨.marks, .self, .sdVector⟩ ∨
    w = ⟨.marks, .rank, .sdRank⟩ ∨ w = ⟨.marks, .select, .sdSelect⟩ ∨ w = ⟨.markToSample, .self, .ints⟩ ∨
    (t.sampled = true ∧ (w = ⟨.samplesIdx, .self, b.ty⟩ ∨ w = ⟨.samplesIdx, .rank, b.rankTy⟩)) ∨
    (t.overPositions = true ∧ w = ⟨.samplesIdx, .select, b.selectTy⟩) ∨
    (t.counted = true ∧ w = ⟨.runCumulativeCount, .self, .ints⟩) ∨
    (t.withMarks = true ∧ w = ⟨.validMarks, .self, .bitVector⟩) ∨
    (t.withAreas = true ∧ (w = ⟨.validMarks, .rank, .bitRank0⟩ ∨ w = ⟨.validAreas, .self, .ints⟩)) := by
  unfold writes
  cases t.sampled <;> cases t.overPositions <;> cases t.counted <;> cases t.withMarks <;> cases t.withAreas <;> simp [or_assoc]

theorem overPositions_sampled (t : IndexType) : t.overPositions = true → t.sampled = true := by cases t <;> decide
theorem withAreas_marks (t : IndexType) : t.withAreas = true → t.withMarks = true := by cases t <;> decide

theorem bits_sdVector {x : Item} {bv : List Bool} (h : x.type = .sdVector) (hb : x.bits = some bv) : x = .sdVector bv := by
  cases x <;> simp_all [Item.type, Item.bits]

theorem bits_bitVector {x : Item} {bv : List Bool} (h : x.type = .bitVector) (hb : x.bits = some bv) : x = .bitVector bv := by
  cases x <;> simp_all [Item.type, Item.bits]

theorem supports_eq {x : Item} {bv : List Bool} (hb : x.supports bv = true) :
    (x.type = .sdRank → x = .sdRank (some bv)) ∧ (x.type = .sdSelect → x = .sdSelect (some bv)) ∧
    (x.type = .bitRank0 → x = .bitRank0 bv (some bv)) ∧ (x.type = .bitRank1 → x = .bitRank1 bv (some bv)) ∧
    (x.type = .bitSelect1 → x = .bitSelect1 bv (some bv)) := by
  cases x <;> simp_all [Item.type, Item.supports]

/-- the items that the queries of an object read are the ones its serialize writes -/
theorem collect_items {t : IndexType} {b : BvKind} {keys : Slot → Key} {S : Storage} {p : Parts} (h : collect t b keys S = some p) :
    p.WF t ∧ ∀ w ∈ writes t b, S.get w.ty (w.key keys) = some (itemOf b p w) := by
  unfold collect at h
  simp only [Option.bind_eq_bind, Option.bind_eq_some_iff, Option.pure_def] at h
  obtain ⟨a, ha, nav, hnav, samples, hsamples, marks, hmarks, links, hlinks, idx, hidx, cum, hcum, vm, hvm, va, hva, h⟩ := h
  simp only [Option.some.injEq] at h
  subst h
  have ha' : S.get .alphabet (keys .alphabet) = some (.alphabet a) := by
    revert ha
    cases hg : S.get .alphabet (keys .alphabet) with
    | none => intro h; cases h
    | some x => cases x <;> intro h <;> simp_all
  have hself : ∀ slot ty, (Write.mk slot .self ty).key keys = keys slot := fun slot ty => by simp [Write.key, Part.suffix]
  refine ⟨⟨(Storage.get_eq_some.1 hnav).2, ?_, ?_, ?_, ?_⟩, ?_⟩
  · intro h; rw [h] at hidx; simpa using hidx.symm
  · intro h; rw [h] at hcum; simpa using hcum.symm
  · intro h; rw [h] at hvm; simpa using hvm.symm
  · intro h; rw [h] at hva; simpa using hva.symm
  obtain ⟨x, hx, hxb, hxs⟩ := getBits_eq_some hmarks
  obtain ⟨r, hr, hrs⟩ := hxs _ (List.mem_cons_self ..)
  obtain ⟨q, hq, hqs⟩ := hxs _ (List.mem_cons_of_mem _ (List.mem_cons_self ..))
  have hxe := bits_sdVector (Storage.get_eq_some.1 hx).2 hxb
  have hre := (supports_eq hrs).1 (Storage.get_eq_some.1 hr).2
  have hqe := (supports_eq hqs).2.1 (Storage.get_eq_some.1 hq).2
  subst hxe hre hqe
  intro w hw
  rcases mem_writes.1 hw with rfl | rfl | rfl | rfl | rfl | rfl | rfl | ⟨ht, hw⟩ | ⟨ht, hw⟩ | ⟨ht, rfl⟩ | ⟨ht, rfl⟩ | ⟨ht, hw⟩
  · rw [hself]; exact ha'
  · rw [hself]; exact hnav
  · rw [hself]; exact getInts_eq_some.1 hsamples
  · rw [hself]; exact hx
  · exact hr
  · exact hq
  · rw [hself]; exact getInts_eq_some.1 hlinks
  · rw [if_pos ht] at hidx
    obtain ⟨y, hy, hyb, hys⟩ := getBits_eq_some hidx
    obtain ⟨z, hz, hzs⟩ := hys _ (List.mem_cons_self ..)
    rcases hw with rfl | rfl
    · rw [hself]
      cases b
      · have := bits_sdVector (Storage.get_eq_some.1 hy).2 hyb; subst this; exact hy
      · have := bits_bitVector (Storage.get_eq_some.1 hy).2 hyb; subst this; exact hy
    · cases b
      · have := (supports_eq hzs).1 (Storage.get_eq_some.1 hz).2; subst this; exact hz
      · have := (supports_eq hzs).2.2.2.1 (Storage.get_eq_some.1 hz).2; subst this; exact hz
  · rw [if_pos (overPositions_sampled t ht), if_pos ht] at hidx
    obtain ⟨y, hy, hyb, hys⟩ := getBits_eq_some hidx
    obtain ⟨z, hz, hzs⟩ := hys _ (List.mem_cons_of_mem _ (List.mem_cons_self ..))
    subst hw
    cases b
    · have := (supports_eq hzs).2.1 (Storage.get_eq_some.1 hz).2; subst this; exact hz
    · have := (supports_eq hzs).2.2.2.2 (Storage.get_eq_some.1 hz).2; subst this; exact hz
  · rw [if_pos ht] at hcum; rw [hself]; exact getInts_eq_some.1 hcum
  · rw [if_pos ht] at hvm
    obtain ⟨y, hy, hyb, -⟩ := getBits_eq_some hvm
    have := bits_bitVector (Storage.get_eq_some.1 hy).2 hyb; subst this; rw [hself]; exact hy
  · rw [if_pos (withAreas_marks t ht), if_pos ht] at hvm
    rw [if_pos ht] at hva
    obtain ⟨y, hy, hyb, hys⟩ := getBits_eq_some hvm
    obtain ⟨z, hz, hzs⟩ := hys _ (List.mem_cons_self ..)
    rcases hw with rfl | rfl
    · have := (supports_eq hzs).2.2.1 (Storage.get_eq_some.1 hz).2; subst this; exact hz
    · rw [hself]; exact getInts_eq_some.1 hva

/-- a storage with the items of an index answers with them -/
theorem collect_of {t : IndexType} {b : BvKind} {keys : Slot → Key} {S : Storage} {p : Parts} (hp : p.WF t)
    (h : ∀ w ∈ writes t b, S.get w.ty (w.key keys) = some (itemOf b p w)) : collect t b keys S = some p := by
  have hself : ∀ slot ty, (Write.mk slot .self ty) ∈ writes t b → S.get ty (keys slot) = some (itemOf b p ⟨slot, .self, ty⟩) := by
    intro slot ty hw
    have := h _ hw
    simpa [Write.key, Part.suffix] using this
  have e1 := hself .alphabet .alphabet (mem_writes.2 (by simp))
  have e2 := hself .navigate (navTy t) (mem_writes.2 (by simp))
  have e3 := hself .samples .ints (mem_writes.2 (by simp))
  have e4 := hself .marks .sdVector (mem_writes.2 (by simp))
  have e5 := h ⟨.marks, .rank, .sdRank⟩ (mem_writes.2 (by simp))
  have e6 := h ⟨.marks, .select, .sdSelect⟩ (mem_writes.2 (by simp))
  have e7 := hself .markToSample .ints (mem_writes.2 (by simp))
  have f4 : S.getBits .sdVector (keys .marks)
      [(.sdRank, keys .marks ++ Part.rank.suffix), (.sdSelect, keys .marks ++ Part.select.suffix)] = some p.marks := by
    refine getBits_of e4 rfl [.sdRank (some p.marks), .sdSelect (some p.marks)] ?_ ?_
    · rw [List.mapM_cons, List.mapM_cons, List.mapM_nil]
      have e5' : S.get .sdRank (keys .marks ++ Part.rank.suffix) = some (.sdRank (some p.marks)) := e5
      have e6' : S.get .sdSelect (keys .marks ++ Part.select.suffix) = some (.sdSelect (some p.marks)) := e6
      rw [e5', e6']; rfl
    · simp [Item.supports]
  have f8 : (if t.sampled then
      S.getBits b.ty (keys .samplesIdx)
        ((b.rankTy, keys .samplesIdx ++ Part.rank.suffix) ::
          (if t.overPositions then [(b.selectTy, keys .samplesIdx ++ Part.select.suffix)] else []))
      else some []) = some p.samplesIdx := by
    cases ht : t.sampled with
    | false => rw [if_neg (by simp), hp.idx ht]
    | true =>
      rw [if_pos rfl]
      have g1 := hself .samplesIdx b.ty (mem_writes.2 (by simp [ht]))
      have g2 : S.get b.rankTy (keys .samplesIdx ++ Part.rank.suffix) = some (itemOf b p ⟨.samplesIdx, .rank, b.rankTy⟩) :=
        h ⟨.samplesIdx, .rank, b.rankTy⟩ (mem_writes.2 (by simp [ht]))
      cases ho : t.overPositions with
      | false =>
        refine getBits_of g1 (by cases b <;> rfl) [itemOf b p ⟨.samplesIdx, .rank, b.rankTy⟩] ?_ ?_
        · rw [if_neg (by simp), List.mapM_cons, List.mapM_nil, g2]; rfl
        · cases b <;> simp [itemOf, Item.supports]
      | true =>
        have g3 : S.get b.selectTy (keys .samplesIdx ++ Part.select.suffix) = some (itemOf b p ⟨.samplesIdx, .select, b.selectTy⟩) :=
          h ⟨.samplesIdx, .select, b.selectTy⟩ (mem_writes.2 (by simp [ho]))
        refine getBits_of g1 (by cases b <;> rfl)
          [itemOf b p ⟨.samplesIdx, .rank, b.rankTy⟩, itemOf b p ⟨.samplesIdx, .select, b.selectTy⟩] ?_ ?_
        · rw [if_pos rfl, List.mapM_cons, List.mapM_cons, List.mapM_nil, g2, g3]; rfl
        · cases b <;> simp [itemOf, Item.supports]
  have f9 : (if t.counted then S.getInts (keys .runCumulativeCount) else some []) = some p.cumRuns := by
    cases ht : t.counted with
    | false => rw [if_neg (by simp), hp.cum ht]
    | true => rw [if_pos rfl]; exact getInts_eq_some.2 (hself .runCumulativeCount .ints (mem_writes.2 (by simp [ht])))
  have f10 : (if t.withMarks then
      S.getBits .bitVector (keys .validMarks) (if t.withAreas then [(.bitRank0, keys .validMarks ++ Part.rank.suffix)] else [])
      else some []) = some p.validMarks := by
    cases ht : t.withMarks with
    | false => rw [if_neg (by simp), hp.vm ht]
    | true =>
      rw [if_pos rfl]
      have g1 := hself .validMarks .bitVector (mem_writes.2 (by simp [ht]))
      cases ho : t.withAreas with
      | false => exact getBits_of g1 rfl [] (by rw [if_neg (by simp)]; rfl) rfl
      | true =>
        have g2 : S.get .bitRank0 (keys .validMarks ++ Part.rank.suffix) = some (itemOf b p ⟨.validMarks, .rank, .bitRank0⟩) :=
          h ⟨.validMarks, .rank, .bitRank0⟩ (mem_writes.2 (by simp [ho]))
        refine getBits_of g1 rfl [itemOf b p ⟨.validMarks, .rank, .bitRank0⟩] ?_ ?_
        · rw [if_pos rfl, List.mapM_cons, List.mapM_nil, g2]; rfl
        · simp [itemOf, Item.supports]
  have f11 : (if t.withAreas then S.getInts (keys .validAreas) else some []) = some p.validAreas := by
    cases ht : t.withAreas with
    | false => rw [if_neg (by simp), hp.va ht]
    | true => rw [if_pos rfl]; exact getInts_eq_some.2 (hself .validAreas .ints (mem_writes.2 (by simp [ht])))
  have e1' : S.get .alphabet (keys .alphabet) = some (.alphabet p.alphabet) := e1
  have e2' : S.get (navTy t) (keys .navigate) = some p.nav := e2
  have e3' : S.getInts (keys .samples) = some p.samples := getInts_eq_some.2 e3
  have e7' : S.getInts (keys .markToSample) = some p.markToSample := getInts_eq_some.2 e7
  unfold collect
  simp only [e1', e2', e3', e7', f4, f8, f9, f10, f11, Option.bind_eq_bind, Option.bind_some, Option.pure_def]

end Sri
