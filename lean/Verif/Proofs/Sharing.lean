import Verif.Proofs.ObjectLoad
import Verif.Proofs.Keys
/-! # Items that several index types keep under one key -/
namespace Sri
set_option autoImplicit false

/-- the class that constructs the samples of an index type -/
def IndexType.rep : IndexType → IndexType
  | .rIndex => .rIndex
  | .srIndex | .srIndexValidMark | .srIndexValidArea => .srIndex
  | .rcsaWithBWTRun => .rcsaWithBWTRun
  | .rcsaWithPsiRun => .rcsaWithPsiRun
  | .srCSA | .srCSAValidMark | .srCSAValidArea => .srCSA
  | .srCSASlim | .srCSASlimValidMark | .srCSASlimValidArea => .srCSASlim
  | .srCSAWithPsiRun | .psiValidMark | .psiValidArea => .srCSAWithPsiRun

def allTypes : List IndexType :=
  [.rIndex, .srIndex, .srIndexValidMark, .srIndexValidArea, .rcsaWithBWTRun, .rcsaWithPsiRun, .srCSA, .srCSASlim, .srCSAValidMark, .srCSAValidArea,
   .srCSASlimValidMark, .srCSASlimValidArea, .srCSAWithPsiRun, .psiValidMark, .psiValidArea]

theorem mem_allTypes (t : IndexType) : t ∈ allTypes := by cases t <;> decide

/-- the family of the marks: SrCSA and SrCSASlim share theirs -/
def IndexType.markRep (t : IndexType) : IndexType := if t.rep = .srCSASlim then .srCSA else t.rep

/-- index types whose items of a slot are the same -/
def agree (t₁ t₂ : IndexType) : Slot → Bool
  | .alphabet => true
  | .navigate => t₁.overBWT == t₂.overBWT
  | .marks => t₁.markRep = t₂.markRep
  | .validMarks => t₁.markRep = t₂.markRep && t₁.withMarks && t₂.withMarks
  | .validAreas => t₁.markRep = t₂.markRep && t₁.withAreas && t₂.withAreas
  | _ => t₁.rep = t₂.rep

/-- the two index types that use the same keys for different items -/
def clash (t₁ t₂ : IndexType) : Bool :=
  (t₁ = .rIndex && t₂ = .rcsaWithBWTRun) || (t₁ = .rcsaWithBWTRun && t₂ = .rIndex)

theorem same_name (b : BvKind) : ∀ t₁ ∈ allTypes, ∀ t₂ ∈ allTypes, ∀ w₁ ∈ writes t₁ b, ∀ w₂ ∈ writes t₂ b, w₁.name t₁ = w₂.name t₂ →
    clash t₁ t₂ = true ∨ (w₁.slot = w₂.slot ∧ w₁.part = w₂.part ∧ agree t₁ t₂ w₁.slot = true) := by
  cases b <;> decide +kernel

theorem prefixed_sampled (t : IndexType) (slot : Slot) (h : (keyName t slot).1 = true) : t.sampled = true := by
  revert h; cases t <;> cases slot <;> decide

theorem same_key {b : BvKind} {t₁ t₂ : IndexType} (hc : clash t₁ t₂ = false) {s₁ s₂ : Nat} {w₁ w₂ : Write} (h₁ : w₁ ∈ writes t₁ b) (h₂ : w₂ ∈ writes t₂ b)
    (e : w₁.key (keyOf t₁ (buildPrefix t₁ s₁)) = w₂.key (keyOf t₂ (buildPrefix t₂ s₂))) :
    w₁.slot = w₂.slot ∧ w₁.part = w₂.part ∧ agree t₁ t₂ w₁.slot = true ∧ (keyName t₁ w₁.slot).1 = (keyName t₂ w₂.slot).1 ∧
      ((keyName t₁ w₁.slot).1 = true → s₁ = s₂) := by
  have fin : w₁.name t₁ = w₂.name t₂ → ((keyName t₁ w₁.slot).1 = true → s₁ = s₂) →
      w₁.slot = w₂.slot ∧ w₁.part = w₂.part ∧ agree t₁ t₂ w₁.slot = true ∧ (keyName t₁ w₁.slot).1 = (keyName t₂ w₂.slot).1 ∧
      ((keyName t₁ w₁.slot).1 = true → s₁ = s₂) := by
    intro hn hs
    rcases same_name b t₁ (mem_allTypes _) t₂ (mem_allTypes _) w₁ h₁ w₂ h₂ hn with h | ⟨h1, h2, h3⟩
    · rw [hc] at h; cases h
    · have h4 := congrArg Prod.fst hn
      exact ⟨h1, h2, h3, h4, hs⟩
  cases hp₁ : (keyName t₁ w₁.slot).1 with
  | true =>
    have e₁ : buildPrefix t₁ s₁ = ratePrefix s₁ := by unfold buildPrefix; rw [if_pos (prefixed_sampled t₁ _ hp₁)]
    cases hp₂ : (keyName t₂ w₂.slot).1 with
    | true =>
      have e₂ : buildPrefix t₂ s₂ = ratePrefix s₂ := by unfold buildPrefix; rw [if_pos (prefixed_sampled t₂ _ hp₂)]
      rw [Write.key_eq, Write.key_eq, e₁, e₂] at e
      have hw : ∀ (t : IndexType) (w : Write) (s : Nat), (keyName t w.slot).1 = true → withPrefix (ratePrefix s) (w.name t) = ratePrefix s ++ (w.name t).2 := by
        intro t w s h; unfold withPrefix; rw [if_pos]; exact h
      rw [hw _ _ _ hp₁, hw _ _ _ hp₂] at e
      obtain ⟨hs, hn⟩ := ratePrefix_inj e
      have := fin (Prod.ext (hp₁.trans hp₂.symm) hn) (fun _ => hs)
      rw [hp₁, hp₂] at this
      exact this
    | false => rw [e₁] at e; exact absurd e (rate_ne_free t₁ t₂ b s₁ _ w₁ w₂ h₂ hp₁ hp₂)
  | false =>
    cases hp₂ : (keyName t₂ w₂.slot).1 with
    | true =>
      have e₂ : buildPrefix t₂ s₂ = ratePrefix s₂ := by unfold buildPrefix; rw [if_pos (prefixed_sampled t₂ _ hp₂)]
      rw [e₂] at e; exact absurd e.symm (rate_ne_free t₂ t₁ b s₂ _ w₂ w₁ h₁ hp₂ hp₁)
    | false =>
      rw [Write.key_eq, Write.key_eq] at e
      have hw : ∀ (t : IndexType) (w : Write) (pre : Key), (keyName t w.slot).1 = false → withPrefix pre (w.name t) = (w.name t).2 := by
        intro t w s h; unfold withPrefix; rw [if_neg]; simp [Write.name, h]
      rw [hw _ _ _ hp₁, hw _ _ _ hp₂] at e
      have := fin (Prod.ext (hp₁.trans hp₂.symm) e) (fun h => by rw [hp₁] at h; cases h)
      rw [hp₁, hp₂] at this
      exact this

/-! ## Their values are the same -/

variable {T sa : List Nat}

/-- the items of an index type are those of its representative, but for the validity information -/
theorem partsOf_rep {t : IndexType} {s : Nat} {p : Parts} (h : partsOf t T sa s = some p) :
    partsOf t.rep T sa s = some { p with validMarks := [], validAreas := [] } := by
  cases t <;> simp only [partsOf, Option.map_eq_some_iff] at h <;> obtain ⟨I, hI, rfl⟩ := h <;> simp only [IndexType.rep, partsOf, hI, Option.map_some] <;>
    try rfl
  case srIndexValidMark => rw [srvalid_build_sr hI]; rfl
  case srIndexValidArea => rw [srvalid_build_sr hI]; rfl
  all_goals
    first
    | (unfold SrCSAValid.build at hI)
    | (unfold SrCSAValid.buildSlim at hI)
    | (unfold SrCSAValid.buildPsi at hI)
    simp only [Option.bind_eq_bind, Option.bind_eq_some_iff, Option.pure_def, Option.some.injEq] at hI
  case srCSAValidMark => obtain ⟨J, hJ, k, -, marks, -, v, -, rfl⟩ := hI; rw [hJ]; rfl
  case srCSAValidArea => obtain ⟨J, hJ, k, -, marks, -, v, -, rfl⟩ := hI; rw [hJ]; rfl
  case srCSASlimValidMark => obtain ⟨J, hJ, k, -, marks, -, v, -, rfl⟩ := hI; rw [hJ]; rfl
  case srCSASlimValidArea => obtain ⟨J, hJ, k, -, marks, -, v, -, rfl⟩ := hI; rw [hJ]; rfl
  case psiValidMark => obtain ⟨k, hk, v, -, rfl⟩ := hI; simp only [SrCSA.buildPsi, hk]; rfl
  case psiValidArea => obtain ⟨k, hk, v, -, rfl⟩ := hI; simp only [SrCSA.buildPsi, hk]; rfl

theorem commons_parts {s : Nat} {k : SrCSA.Commons} (h : SrCSA.commons T sa s = some k) :
    constructBase T sa = some k.base ∧ constructPsiItems k.base = some k.psi := by
  unfold SrCSA.commons at h
  simp only [Option.bind_eq_bind, Option.bind_eq_some_iff, Option.pure_def, Option.some.injEq] at h
  obtain ⟨b, hb, p, hp, links, -, idx, -, samples, -, sub, -, rfl⟩ := h
  exact ⟨hb, hp⟩

/-- alphabet, navigation structure and cumulative counts depend on the text only -/
def textItems (t : IndexType) (T sa : List Nat) : Option (Alphabet × Item × List Nat) := do
  let b ← constructBase T sa
  if t.overBWT then
    return (b.alphabet, .bwtRle b.bwtRle, [])
  else
    let ps ← constructPsiItems b
    let cum ← (match t.rep with
      | .srCSASlim => (SrCSA.sortedByAlphabet ps.core b.runs.first (List.range ps.core.parts.length) 0).map (·.2)
      | .srCSAWithPsiRun => SrCSA.cumulative ps.core (List.range ps.core.parts.length) 0
      | _ => some [])
    return (b.alphabet, .psi ps.core, cum)

theorem partsOf_text {t : IndexType} {s : Nat} {p : Parts} (h : partsOf t T sa s = some p) :
    textItems t T sa = some (p.alphabet, p.nav, p.cumRuns) := by
  have key : ∀ {t : IndexType} {p : Parts}, t.rep = t → partsOf t T sa s = some p → textItems t T sa = some (p.alphabet, p.nav, p.cumRuns) := by
    intro t p ht h
    cases t <;> (first | (cases ht; done) | skip) <;> simp only [partsOf, Option.map_eq_some_iff] at h <;> obtain ⟨I, hI, rfl⟩ := h
    case rIndex =>
      unfold RIndex.build at hI
      simp only [Option.bind_eq_bind, Option.bind_eq_some_iff, Option.pure_def, Option.some.injEq] at hI
      obtain ⟨b, hb, marks, -, n, -, rfl⟩ := hI
      unfold textItems; rw [hb]; rfl
    case srIndex =>
      unfold SrIndex.build at hI
      simp only [Option.bind_eq_bind, Option.bind_eq_some_iff, Option.pure_def, Option.some.injEq] at hI
      obtain ⟨b, hb, idx, -, samples, -, bv, -, sub, -, marks, -, n, hn, rfl⟩ := hI
      unfold textItems; rw [hb]; rfl
    case rcsaWithBWTRun =>
      unfold RCSABwt.build at hI
      simp only [Option.bind_eq_bind, Option.bind_eq_some_iff, Option.pure_def, Option.some.injEq] at hI
      obtain ⟨b, hb, ps, hp, links, -, marks, -, n, -, rfl⟩ := hI
      simp only [textItems, hb, hp, IndexType.overBWT, IndexType.rep, Option.bind_eq_bind, Option.bind_some, Option.pure_def, Bool.false_eq_true, if_false]; rfl
    case rcsaWithPsiRun =>
      unfold RCSAPsi.build at hI
      simp only [Option.bind_eq_bind, Option.bind_eq_some_iff, Option.pure_def, Option.some.injEq] at hI
      obtain ⟨b, hb, ps, hp, heads, -, tails, -, marks, -, links, -, n, -, rfl⟩ := hI
      simp only [textItems, hb, hp, IndexType.overBWT, IndexType.rep, Option.bind_eq_bind, Option.bind_some, Option.pure_def, Bool.false_eq_true, if_false]; rfl
    case srCSA =>
      unfold SrCSA.build at hI
      simp only [Option.bind_eq_bind, Option.bind_eq_some_iff, Option.pure_def, Option.some.injEq] at hI
      obtain ⟨k, hk, marks, -, pos, -, bv, -, n, hn, rfl⟩ := hI
      obtain ⟨hb, hp⟩ := commons_parts hk
      simp only [textItems, hb, hp, IndexType.overBWT, IndexType.rep, Option.bind_eq_bind, Option.bind_some, Option.pure_def, Bool.false_eq_true, if_false]; rfl
    case srCSASlim =>
      unfold SrCSA.buildSlim at hI
      simp only [Option.bind_eq_bind, Option.bind_eq_some_iff, Option.pure_def, Option.some.injEq] at hI
      obtain ⟨k, hk, marks, -, sc, hsc, bv, -, sl, -, links, -, bv', -, n, hn, rfl⟩ := hI
      obtain ⟨hb, hp⟩ := commons_parts hk
      simp only [textItems, hb, hp, hsc, IndexType.overBWT, IndexType.rep, Option.bind_eq_bind, Option.bind_some, Option.map_some, Option.pure_def, Bool.false_eq_true, if_false]; rfl
    case srCSAWithPsiRun =>
      unfold SrCSA.buildPsi SrCSA.commonsPsi at hI
      simp only [Option.bind_eq_bind, Option.bind_eq_some_iff, Option.pure_def, Option.some.injEq] at hI
      obtain ⟨k, ⟨b, hb, ps, hp, heads, -, tails, -, links, -, idx, -, samples, -, sub, -, marks, -, bv, -, cum, hcum, n, hn, rfl⟩, rfl⟩ := hI
      simp only [textItems, hb, hp, hcum, IndexType.overBWT, IndexType.rep, Option.bind_eq_bind, Option.bind_some, Option.pure_def, Bool.false_eq_true, if_false]; rfl
  have h1 := key (t := t.rep) (by cases t <;> rfl) (partsOf_rep h)
  have h2 : textItems t T sa = textItems t.rep T sa := by cases t <;> rfl
  rw [h2]; exact h1

/-- SrCSA and SrCSASlim have the same marks -/
theorem marks_pos_slim {s : Nat} {p₁ p₂ : Parts} (h₁ : partsOf .srCSA T sa s = some p₁) (h₂ : partsOf .srCSASlim T sa s = some p₂) : p₁.marks = p₂.marks := by
  simp only [partsOf, Option.map_eq_some_iff] at h₁ h₂
  obtain ⟨I₁, h₁, rfl⟩ := h₁
  obtain ⟨I₂, h₂, rfl⟩ := h₂
  unfold SrCSA.build at h₁
  unfold SrCSA.buildSlim at h₂
  simp only [Option.bind_eq_bind, Option.bind_eq_some_iff, Option.pure_def, Option.some.injEq] at h₁ h₂
  obtain ⟨k, hk, marks, hm, pos, -, bv, -, n, hn, rfl⟩ := h₁
  obtain ⟨k', hk', marks', hm', sc, hsc, bv, -, sl, -, links, -, bv', -, n, hn, rfl⟩ := h₂
  rw [hk] at hk'
  cases hk'
  rw [hm] at hm'
  exact Option.some.inj hm'

/-- the validity information of an index type -/
def validItems (t : IndexType) (T sa : List Nat) (s : Nat) : Option (List Bool × List Nat) :=
  match t.rep with
  | .srIndex => (SrIndexValid.build T sa s).map (fun I => (I.validMarks, I.validAreas))
  | .srCSAWithPsiRun => (SrCSAValid.buildPsi T sa s).map (fun I => (I.validMarks, I.validAreas))
  | _ => do
    let k ← SrCSA.commons T sa s
    let marks ← k.sortedMarksIdx.mapM (fun i => k.base.runs.lastTextPos[i]?)
    SrCSAValid.validity marks k.sub

theorem partsOf_valid {t : IndexType} {s : Nat} {p : Parts} (h : partsOf t T sa s = some p) (ht : t.withMarks = true) :
    ∃ v, validItems t T sa s = some v ∧ p.validMarks = v.1 ∧ (t.withAreas = true → p.validAreas = v.2) := by
  cases t <;> (first | (cases ht; done) | skip) <;> simp only [partsOf, Option.map_eq_some_iff] at h <;> obtain ⟨I, hI, rfl⟩ := h
  case srIndexValidMark => exact ⟨_, by simp only [validItems, IndexType.rep, hI]; rfl, rfl, fun h => by cases h⟩
  case srIndexValidArea => exact ⟨_, by simp only [validItems, IndexType.rep, hI]; rfl, rfl, fun h => rfl⟩
  case psiValidMark => exact ⟨_, by simp only [validItems, IndexType.rep, hI]; rfl, rfl, fun h => by cases h⟩
  case psiValidArea => exact ⟨_, by simp only [validItems, IndexType.rep, hI]; rfl, rfl, fun h => rfl⟩
  all_goals
    first
    | (unfold SrCSAValid.build at hI)
    | (unfold SrCSAValid.buildSlim at hI)
    simp only [Option.bind_eq_bind, Option.bind_eq_some_iff, Option.pure_def, Option.some.injEq] at hI
    obtain ⟨J, hJ, k, hk, marks, hm, v, hv, rfl⟩ := hI
    refine ⟨v, by simp only [validItems, IndexType.rep, hk, hm, hv, Option.bind_eq_bind, Option.bind_some], rfl, ?_⟩
    first
    | exact fun _ => rfl
    | exact fun h => by cases h

theorem partsOf_rate {t : IndexType} (ht : t.sampled = false) (s₁ s₂ : Nat) : partsOf t T sa s₁ = partsOf t T sa s₂ := by
  cases t <;> first | (cases ht; done) | rfl

theorem text_alphabet {t : IndexType} {x : Alphabet × Item × List Nat} (h : textItems t T sa = some x) :
    ∃ b, constructBase T sa = some b ∧ x.1 = b.alphabet ∧ (t.overBWT = true → x.2.1 = .bwtRle b.bwtRle) ∧
      (t.overBWT = false → ∃ ps, constructPsiItems b = some ps ∧ x.2.1 = .psi ps.core) := by
  unfold textItems at h
  simp only [Option.bind_eq_bind, Option.bind_eq_some_iff] at h
  obtain ⟨b, hb, h⟩ := h
  cases ht : t.overBWT with
  | true =>
    rw [ht, if_pos rfl] at h
    simp only [Option.pure_def, Option.some.injEq] at h
    subst h
    exact ⟨b, hb, rfl, fun _ => rfl, fun h => by cases h⟩
  | false =>
    rw [ht, if_neg (by simp)] at h
    simp only [Option.pure_def, Option.bind_eq_some_iff, Option.some.injEq] at h
    obtain ⟨ps, hps, cum, -, rfl⟩ := h
    exact ⟨b, hb, rfl, fun h => by (cases h), fun _ => ⟨ps, hps, rfl⟩⟩

theorem rep_overBWT (t : IndexType) : t.rep.overBWT = t.overBWT := by cases t <;> rfl
theorem rep_sampled (t : IndexType) : t.rep.sampled = t.sampled := by cases t <;> rfl

/-- the same class or the same family, at the same rate if there is one: the same samples -/
theorem same_rep {t₁ t₂ : IndexType} {s₁ s₂ : Nat} {p₁ p₂ : Parts} (h₁ : partsOf t₁ T sa s₁ = some p₁) (h₂ : partsOf t₂ T sa s₂ = some p₂)
    (ht : t₁.rep = t₂.rep) (hr : t₁.sampled = true → s₁ = s₂) :
    p₁.samples = p₂.samples ∧ p₁.marks = p₂.marks ∧ p₁.markToSample = p₂.markToSample ∧ p₁.samplesIdx = p₂.samplesIdx := by
  have k₁ := partsOf_rep h₁
  have k₂ := partsOf_rep h₂
  have e : partsOf t₁.rep T sa s₁ = partsOf t₂.rep T sa s₂ := by
    rw [ht]
    cases hs : t₁.sampled with
    | true => rw [hr hs]
    | false => exact partsOf_rate (by rw [← ht, rep_sampled, hs]) _ _
  rw [e, k₂] at k₁
  simp only [Option.some.injEq, Parts.mk.injEq] at k₁
  exact ⟨k₁.2.2.1.symm, k₁.2.2.2.1.symm, k₁.2.2.2.2.1.symm, k₁.2.2.2.2.2.1.symm⟩

theorem same_marks {t₁ t₂ : IndexType} {s₁ s₂ : Nat} {p₁ p₂ : Parts} (h₁ : partsOf t₁ T sa s₁ = some p₁) (h₂ : partsOf t₂ T sa s₂ = some p₂)
    (ht : t₁.markRep = t₂.markRep) (hr : t₁.sampled = true → s₁ = s₂) : p₁.marks = p₂.marks := by
  by_cases he : t₁.rep = t₂.rep
  · exact (same_rep h₁ h₂ he hr).2.1
  · have k₁ := partsOf_rep h₁
    have k₂ := partsOf_rep h₂
    have hc : (t₁.rep = .srCSA ∧ t₂.rep = .srCSASlim) ∨ (t₁.rep = .srCSASlim ∧ t₂.rep = .srCSA) := by
      revert he ht; cases t₁ <;> cases t₂ <;> decide
    have hs : s₁ = s₂ := by
      apply hr
      rw [← rep_sampled]
      rcases hc with ⟨h, -⟩ | ⟨h, -⟩ <;> rw [h] <;> rfl
    subst hs
    rcases hc with ⟨e₁, e₂⟩ | ⟨e₁, e₂⟩
    · rw [e₁] at k₁; rw [e₂] at k₂
      have := marks_pos_slim k₁ k₂
      exact this
    · rw [e₁] at k₁; rw [e₂] at k₂
      have := marks_pos_slim k₂ k₁
      exact this.symm

theorem same_valid {t₁ t₂ : IndexType} (ht : t₁.markRep = t₂.markRep) (s : Nat) : validItems t₁ T sa s = validItems t₂ T sa s := by
  revert ht
  cases t₁ <;> cases t₂ <;> first | (intro _; rfl) | (intro h; cases h)

theorem slot_sampled (t : IndexType) (slot : Slot) (hs : slot = .samples ∨ slot = .marks ∨ slot = .markToSample ∨ slot = .samplesIdx)
    (h : t.sampled = true) : (keyName t slot).1 = true := by
  revert h
  rcases hs with rfl | rfl | rfl | rfl <;> cases t <;> decide

theorem slot_valid (t : IndexType) : (t.withMarks = true → (keyName t .validMarks).1 = true) ∧ (t.withAreas = true → (keyName t .validAreas).1 = true) := by
  cases t <;> decide

theorem same_value (b : BvKind) {t₁ t₂ : IndexType} {s₁ s₂ : Nat} {p₁ p₂ : Parts} (h₁ : partsOf t₁ T sa s₁ = some p₁) (h₂ : partsOf t₂ T sa s₂ = some p₂)
    {w₁ w₂ : Write} (hs : w₁.slot = w₂.slot) (hp : w₁.part = w₂.part) (ha : agree t₁ t₂ w₁.slot = true)
    (hr : (keyName t₁ w₁.slot).1 = true → s₁ = s₂) : itemOf b p₁ w₁ = itemOf b p₂ w₂ := by
  obtain ⟨slot, part, ty⟩ := w₁
  obtain ⟨slot', part', ty'⟩ := w₂
  simp only at hs hp ha hr
  subst hs; subst hp
  obtain ⟨b₁, hb₁, a₁, n₁, m₁⟩ := text_alphabet (partsOf_text h₁)
  obtain ⟨b₂, hb₂, a₂, n₂, m₂⟩ := text_alphabet (partsOf_text h₂)
  rw [hb₁] at hb₂; cases hb₂
  cases slot with
  | alphabet =>
    have : p₁.alphabet = p₂.alphabet := a₁.trans a₂.symm
    simp only [itemOf, this]
  | navigate =>
    have : p₁.nav = p₂.nav := by
      simp only [agree, beq_iff_eq] at ha
      cases ho : t₁.overBWT with
      | true => exact (n₁ ho).trans (n₂ (ha ▸ ho)).symm
      | false =>
        obtain ⟨ps, e, f⟩ := m₁ ho
        obtain ⟨ps', e', f'⟩ := m₂ (ha ▸ ho)
        rw [e] at e'; cases e'
        exact f.trans f'.symm
    simp only [itemOf, this]
  | samples =>
    simp only [agree, decide_eq_true_eq] at ha
    have := (same_rep h₁ h₂ ha (fun h => hr (slot_sampled t₁ _ (by simp) h))).1
    simp only [itemOf, this]
  | marks =>
    simp only [agree, decide_eq_true_eq] at ha
    have := same_marks h₁ h₂ ha (fun h => hr (slot_sampled t₁ _ (by simp) h))
    cases part <;> simp only [itemOf, this]
  | markToSample =>
    simp only [agree, decide_eq_true_eq] at ha
    have := (same_rep h₁ h₂ ha (fun h => hr (slot_sampled t₁ _ (by simp) h))).2.2.1
    simp only [itemOf, this]
  | samplesIdx =>
    simp only [agree, decide_eq_true_eq] at ha
    have := (same_rep h₁ h₂ ha (fun h => hr (slot_sampled t₁ _ (by simp) h))).2.2.2
    cases part <;> cases b <;> simp only [itemOf, this]
  | runCumulativeCount =>
    simp only [agree, decide_eq_true_eq] at ha
    have e : textItems t₁ T sa = textItems t₂ T sa := by
      have : ∀ t : IndexType, textItems t T sa = textItems t.rep T sa := fun t => by cases t <;> rfl
      rw [this t₁, this t₂, ha]
    have k₁ := partsOf_text h₁
    rw [e, partsOf_text h₂] at k₁
    simp only [Option.some.injEq, Prod.mk.injEq] at k₁
    simp only [itemOf, k₁.2.2]
  | validMarks =>
    simp only [agree, Bool.and_eq_true, decide_eq_true_eq] at ha
    have hs := hr ((slot_valid t₁).1 ha.1.2)
    subst hs
    obtain ⟨v₁, e₁, f₁, -⟩ := partsOf_valid h₁ ha.1.2
    obtain ⟨v₂, e₂, f₂, -⟩ := partsOf_valid h₂ ha.2
    rw [same_valid ha.1.1, e₂] at e₁; cases e₁
    cases part <;> simp only [itemOf, f₁, f₂]
  | validAreas =>
    simp only [agree, Bool.and_eq_true, decide_eq_true_eq] at ha
    have hs := hr ((slot_valid t₁).2 ha.1.2)
    subst hs
    obtain ⟨v₁, e₁, -, f₁⟩ := partsOf_valid h₁ (withAreas_marks _ ha.1.2)
    obtain ⟨v₂, e₂, -, f₂⟩ := partsOf_valid h₂ (withAreas_marks _ ha.2)
    rw [same_valid ha.1.1, e₂] at e₁; cases e₁
    simp only [itemOf, f₁ ha.1.2, f₂ ha.2]

/-- two index types of one text at any rates, other than the clashing pair, keep the same item under a key they share -/
theorem shared_item (b : BvKind) {t₁ t₂ : IndexType} (hc : clash t₁ t₂ = false) {s₁ s₂ : Nat} {p₁ p₂ : Parts} (h₁ : partsOf t₁ T sa s₁ = some p₁)
    (h₂ : partsOf t₂ T sa s₂ = some p₂) {w₁ w₂ : Write} (hw₁ : w₁ ∈ writes t₁ b) (hw₂ : w₂ ∈ writes t₂ b)
    (e : w₁.key (keyOf t₁ (buildPrefix t₁ s₁)) = w₂.key (keyOf t₂ (buildPrefix t₂ s₂))) : itemOf b p₁ w₁ = itemOf b p₂ w₂ := by
  obtain ⟨k1, k2, k3, -, k5⟩ := same_key hc hw₁ hw₂ e
  exact same_value b h₁ h₂ k1 k2 k3 k5

end Sri
