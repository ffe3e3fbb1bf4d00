import Verif.Proofs.Rename
/-! # Texts that differ by an order-preserving renaming: the same items, the same answers -/
namespace Sri
set_option autoImplicit false
namespace Rename

variable {φ : Nat → Nat} {T sa : List Nat}

/-- the index with other characters in its alphabet, the other items unchanged -/
def rIndex (φ : Nat → Nat) (I : RIndex) : RIndex := { I with alphabet := alpha φ I.alphabet }
def srIndex (φ : Nat → Nat) (I : SrIndex) : SrIndex := { I with base := rIndex φ I.base }
def srIndexValid (φ : Nat → Nat) (I : SrIndexValid) : SrIndexValid := { I with sr := srIndex φ I.sr }
def rcsa (φ : Nat → Nat) (I : RCSA) : RCSA := { I with alphabet := alpha φ I.alphabet }
def srcsa (φ : Nat → Nat) (I : SrCSA) : SrCSA := { I with alphabet := alpha φ I.alphabet }
def srcsaValid (φ : Nat → Nat) (I : SrCSAValid) : SrCSAValid := { I with csa := srcsa φ I.csa }
def commons (φ : Nat → Nat) (k : SrCSA.Commons) : SrCSA.Commons := { k with base := base φ k.base }
def commonsPsi (φ : Nat → Nat) (k : SrCSA.PsiCommons) : SrCSA.PsiCommons := { k with csa := srcsa φ k.csa }

theorem psiItems (b : BaseItems) : constructPsiItems (base φ b) = constructPsiItems b := rfl

theorem psiRuns (b : BaseItems) (p q : List Nat) : constructPsiRuns (base φ b) p q = constructPsiRuns b p q := by
  unfold constructPsiRuns
  rw [sigma_rename]
  rfl

theorem linksBWT (b : BaseItems) (p : PsiItems) : linksPhiForwardBWT (base φ b) p = linksPhiForwardBWT b p := by
  unfold linksPhiForwardBWT
  rw [sigma_rename]
  rfl

theorem submarksBWT (b : BaseItems) (p : PsiItems) (idx : List Nat) : SrCSA.submarksBWT (base φ b) p idx = SrCSA.submarksBWT b p idx := by
  unfold SrCSA.submarksBWT
  rw [sigma_rename]
  rfl

section
variable (h : ∀ a ∈ T, ∀ b ∈ T, a < b → φ a < φ b) (hn : T ≠ [])
include h hn

theorem rIndex_build : RIndex.build (T.map φ) sa = (RIndex.build T sa).map (rIndex φ) := by
  unfold RIndex.build
  rw [constructBase_rename h hn]
  cases constructBase T sa with
  | none => rfl
  | some b =>
    simp only [Option.map_some, Option.bind_eq_bind, Option.bind_some, sigma_rename, Option.map_bind, Function.comp_def]
    rfl

theorem srIndex_build (s : Nat) : SrIndex.build (T.map φ) sa s = (SrIndex.build T sa s).map (srIndex φ) := by
  unfold SrIndex.build
  rw [constructBase_rename h hn]
  cases constructBase T sa with
  | none => rfl
  | some b =>
    simp only [Option.map_some, Option.bind_eq_bind, Option.bind_some, sigma_rename, Option.map_bind, Function.comp_def]
    rfl

theorem srIndexValid_build (s : Nat) : SrIndexValid.build (T.map φ) sa s = (SrIndexValid.build T sa s).map (srIndexValid φ) := by
  unfold SrIndexValid.build
  rw [constructBase_rename h hn, srIndex_build h hn]
  cases SrIndex.build T sa s with
  | none => rfl
  | some I =>
    cases constructBase T sa with
    | none => rfl
    | some b =>
      simp only [Option.map_some, Option.bind_eq_bind, Option.bind_some, Option.map_bind, Function.comp_def]
      rfl

theorem rcsaBwt_build : RCSABwt.build (T.map φ) sa = (RCSABwt.build T sa).map (rcsa φ) := by
  unfold RCSABwt.build
  rw [constructBase_rename h hn]
  cases constructBase T sa with
  | none => rfl
  | some b =>
    simp only [Option.map_some, Option.bind_eq_bind, Option.bind_some, sigma_rename, psiItems, linksBWT, Option.map_bind, Function.comp_def]
    rfl

theorem rcsaPsi_build : RCSAPsi.build (T.map φ) sa = (RCSAPsi.build T sa).map (rcsa φ) := by
  unfold RCSAPsi.build
  rw [constructBase_rename h hn]
  cases constructBase T sa with
  | none => rfl
  | some b =>
    simp only [Option.map_some, Option.bind_eq_bind, Option.bind_some, sigma_rename, psiItems, psiRuns, Option.map_bind, Function.comp_def]
    rfl

theorem commons_rename (s : Nat) : SrCSA.commons (T.map φ) sa s = (SrCSA.commons T sa s).map (commons φ) := by
  unfold SrCSA.commons
  rw [constructBase_rename h hn]
  cases constructBase T sa with
  | none => rfl
  | some b =>
    simp only [Option.map_some, Option.bind_eq_bind, Option.bind_some, psiItems, linksBWT, submarksBWT, Option.map_bind, Function.comp_def]
    rfl

theorem commonsPsi_rename (s : Nat) : SrCSA.commonsPsi (T.map φ) sa s = (SrCSA.commonsPsi T sa s).map (commonsPsi φ) := by
  unfold SrCSA.commonsPsi
  rw [constructBase_rename h hn]
  cases constructBase T sa with
  | none => rfl
  | some b =>
    simp (maxSteps := 2000000) only [Option.map_some, Option.bind_eq_bind, Option.bind_some, sigma_rename, psiItems, psiRuns, Option.map_bind, Function.comp_def]
    rfl

theorem srcsa_build (s : Nat) : SrCSA.build (T.map φ) sa s = (SrCSA.build T sa s).map (srcsa φ) := by
  unfold SrCSA.build
  rw [commons_rename h hn]
  cases SrCSA.commons T sa s with
  | none => rfl
  | some k =>
    have : (commons φ k).base.alphabet.sigma = k.base.alphabet.sigma := sigma_rename _
    simp only [Option.map_some, Option.bind_eq_bind, Option.bind_some, this, Option.map_bind, Function.comp_def]
    rfl

theorem srcsa_buildSlim (s : Nat) : SrCSA.buildSlim (T.map φ) sa s = (SrCSA.buildSlim T sa s).map (srcsa φ) := by
  unfold SrCSA.buildSlim
  rw [commons_rename h hn]
  cases SrCSA.commons T sa s with
  | none => rfl
  | some k =>
    have : (commons φ k).base.alphabet.sigma = k.base.alphabet.sigma := sigma_rename _
    simp only [Option.map_some, Option.bind_eq_bind, Option.bind_some, this, Option.map_bind, Function.comp_def]
    rfl

theorem srcsa_buildPsi (s : Nat) : SrCSA.buildPsi (T.map φ) sa s = (SrCSA.buildPsi T sa s).map (srcsa φ) := by
  unfold SrCSA.buildPsi
  rw [commonsPsi_rename h hn]
  cases SrCSA.commonsPsi T sa s <;> rfl

theorem srcsaValid_build (s : Nat) : SrCSAValid.build (T.map φ) sa s = (SrCSAValid.build T sa s).map (srcsaValid φ) := by
  unfold SrCSAValid.build
  rw [commons_rename h hn, srcsa_build h hn]
  cases SrCSA.build T sa s with
  | none => rfl
  | some I =>
    cases SrCSA.commons T sa s with
    | none => rfl
    | some k =>
      simp only [Option.map_some, Option.bind_eq_bind, Option.bind_some, Option.map_bind, Function.comp_def]
      rfl

theorem srcsaValid_buildSlim (s : Nat) : SrCSAValid.buildSlim (T.map φ) sa s = (SrCSAValid.buildSlim T sa s).map (srcsaValid φ) := by
  unfold SrCSAValid.buildSlim
  rw [commons_rename h hn, srcsa_buildSlim h hn]
  cases SrCSA.buildSlim T sa s with
  | none => rfl
  | some I =>
    cases SrCSA.commons T sa s with
    | none => rfl
    | some k =>
      simp only [Option.map_some, Option.bind_eq_bind, Option.bind_some, Option.map_bind, Function.comp_def]
      rfl

theorem srcsaValid_buildPsi (s : Nat) : SrCSAValid.buildPsi (T.map φ) sa s = (SrCSAValid.buildPsi T sa s).map (srcsaValid φ) := by
  unfold SrCSAValid.buildPsi
  rw [commonsPsi_rename h hn]
  cases SrCSA.commonsPsi T sa s with
  | none => rfl
  | some k =>
    simp only [Option.map_some, Option.bind_eq_bind, Option.bind_some, Option.map_bind, Function.comp_def]
    rfl

end
/-! ## the alphabet of an index is that of its text -/
section

theorem chars_of_base {b : BaseItems} (hn : T ≠ []) (hb : constructBase T sa = some b) {c : Nat} (hc : c ∈ b.alphabet.chars) : c ∈ T := by
  rw [constructBase_alphabet hb, mem_chars] at hc
  exact mem_constructBWT hn hc

theorem commons_chars {s : Nat} {k : SrCSA.Commons} (hn : T ≠ []) (h : SrCSA.commons T sa s = some k) {c : Nat} (hc : c ∈ k.base.alphabet.chars) : c ∈ T := by
  unfold SrCSA.commons at h
  obtain ⟨b, hb, h⟩ := Option.bind_eq_some_iff.1 h
  iterate 5 obtain ⟨_, _, h⟩ := Option.bind_eq_some_iff.1 h
  cases h
  exact chars_of_base hn hb hc

theorem rIndex_chars {I : RIndex} (hn : T ≠ []) (h : RIndex.build T sa = some I) {c : Nat} (hc : c ∈ I.alphabet.chars) : c ∈ T := by
  unfold RIndex.build at h
  obtain ⟨b, hb, h⟩ := Option.bind_eq_some_iff.1 h
  iterate 2 obtain ⟨_, _, h⟩ := Option.bind_eq_some_iff.1 h
  cases h
  exact chars_of_base hn hb hc

theorem srIndex_chars {s : Nat} {I : SrIndex} (hn : T ≠ []) (h : SrIndex.build T sa s = some I) {c : Nat} (hc : c ∈ I.base.alphabet.chars) : c ∈ T := by
  unfold SrIndex.build at h
  obtain ⟨b, hb, h⟩ := Option.bind_eq_some_iff.1 h
  iterate 6 obtain ⟨_, _, h⟩ := Option.bind_eq_some_iff.1 h
  cases h
  exact chars_of_base hn hb hc

theorem srIndexValid_chars {s : Nat} {I : SrIndexValid} (hn : T ≠ []) (h : SrIndexValid.build T sa s = some I) {c : Nat}
    (hc : c ∈ I.sr.base.alphabet.chars) : c ∈ T := by
  unfold SrIndexValid.build at h
  obtain ⟨b, hb, h⟩ := Option.bind_eq_some_iff.1 h
  iterate 7 obtain ⟨_, _, h⟩ := Option.bind_eq_some_iff.1 h
  cases h
  exact srIndex_chars hn hb hc

theorem rcsaBwt_chars {I : RCSA} (hn : T ≠ []) (h : RCSABwt.build T sa = some I) {c : Nat} (hc : c ∈ I.alphabet.chars) : c ∈ T := by
  unfold RCSABwt.build at h
  obtain ⟨b, hb, h⟩ := Option.bind_eq_some_iff.1 h
  iterate 4 obtain ⟨_, _, h⟩ := Option.bind_eq_some_iff.1 h
  cases h
  exact chars_of_base hn hb hc

theorem rcsaPsi_chars {I : RCSA} (hn : T ≠ []) (h : RCSAPsi.build T sa = some I) {c : Nat} (hc : c ∈ I.alphabet.chars) : c ∈ T := by
  unfold RCSAPsi.build at h
  obtain ⟨b, hb, h⟩ := Option.bind_eq_some_iff.1 h
  iterate 6 obtain ⟨_, _, h⟩ := Option.bind_eq_some_iff.1 h
  cases h
  exact chars_of_base hn hb hc

theorem srcsa_chars {s : Nat} {I : SrCSA} (hn : T ≠ []) (h : SrCSA.build T sa s = some I) {c : Nat} (hc : c ∈ I.alphabet.chars) : c ∈ T := by
  unfold SrCSA.build at h
  obtain ⟨b, hb, h⟩ := Option.bind_eq_some_iff.1 h
  iterate 4 obtain ⟨_, _, h⟩ := Option.bind_eq_some_iff.1 h
  cases h
  exact commons_chars hn hb hc

theorem slim_chars {s : Nat} {I : SrCSA} (hn : T ≠ []) (h : SrCSA.buildSlim T sa s = some I) {c : Nat} (hc : c ∈ I.alphabet.chars) : c ∈ T := by
  unfold SrCSA.buildSlim at h
  obtain ⟨b, hb, h⟩ := Option.bind_eq_some_iff.1 h
  obtain ⟨_, _, h⟩ := Option.bind_eq_some_iff.1 h
  obtain ⟨⟨_, _⟩, _, h⟩ := Option.bind_eq_some_iff.1 h
  obtain ⟨_, _, h⟩ := Option.bind_eq_some_iff.1 h
  obtain ⟨⟨_, _, _⟩, _, h⟩ := Option.bind_eq_some_iff.1 h
  iterate 3 obtain ⟨_, _, h⟩ := Option.bind_eq_some_iff.1 h
  cases h
  exact commons_chars hn hb hc

theorem commonsPsi_chars {s : Nat} {k : SrCSA.PsiCommons} (hn : T ≠ []) (h : SrCSA.commonsPsi T sa s = some k) {c : Nat}
    (hc : c ∈ k.csa.alphabet.chars) : c ∈ T := by
  unfold SrCSA.commonsPsi at h
  obtain ⟨b, hb, h⟩ := Option.bind_eq_some_iff.1 h
  iterate 11 obtain ⟨_, _, h⟩ := Option.bind_eq_some_iff.1 h
  cases h
  exact chars_of_base hn hb hc

theorem psi_chars {s : Nat} {I : SrCSA} (hn : T ≠ []) (h : SrCSA.buildPsi T sa s = some I) {c : Nat} (hc : c ∈ I.alphabet.chars) : c ∈ T := by
  unfold SrCSA.buildPsi at h
  obtain ⟨b, hb, h⟩ := Option.bind_eq_some_iff.1 h
  cases h
  exact commonsPsi_chars hn hb hc

theorem srcsaValid_chars {s : Nat} {I : SrCSAValid} (hn : T ≠ []) (h : SrCSAValid.build T sa s = some I) {c : Nat}
    (hc : c ∈ I.csa.alphabet.chars) : c ∈ T := by
  unfold SrCSAValid.build at h
  obtain ⟨b, hb, h⟩ := Option.bind_eq_some_iff.1 h
  iterate 2 obtain ⟨_, _, h⟩ := Option.bind_eq_some_iff.1 h
  obtain ⟨⟨_, _⟩, _, h⟩ := Option.bind_eq_some_iff.1 h
  cases h
  exact srcsa_chars hn hb hc

theorem slimValid_chars {s : Nat} {I : SrCSAValid} (hn : T ≠ []) (h : SrCSAValid.buildSlim T sa s = some I) {c : Nat}
    (hc : c ∈ I.csa.alphabet.chars) : c ∈ T := by
  unfold SrCSAValid.buildSlim at h
  obtain ⟨b, hb, h⟩ := Option.bind_eq_some_iff.1 h
  iterate 2 obtain ⟨_, _, h⟩ := Option.bind_eq_some_iff.1 h
  obtain ⟨⟨_, _⟩, _, h⟩ := Option.bind_eq_some_iff.1 h
  cases h
  exact slim_chars hn hb hc

theorem psiValid_chars {s : Nat} {I : SrCSAValid} (hn : T ≠ []) (h : SrCSAValid.buildPsi T sa s = some I) {c : Nat}
    (hc : c ∈ I.csa.alphabet.chars) : c ∈ T := by
  unfold SrCSAValid.buildPsi at h
  obtain ⟨b, hb, h⟩ := Option.bind_eq_some_iff.1 h
  obtain ⟨⟨_, _⟩, _, h⟩ := Option.bind_eq_some_iff.1 h
  cases h
  exact commonsPsi_chars hn hb hc

end

/-! ## answers -/
section
variable {P : List Nat}

theorem rIndex_answers (I : RIndex) (h : ∀ c ∈ P, (alpha φ I.alphabet).char2comp (φ c) = I.alphabet.char2comp c) :
    (rIndex φ I).count (P.map φ) = I.count P ∧
    (rIndex φ I).locate (P.map φ) = I.locate P :=
  ⟨count_rename (I.functors) _ h,
    locate_rename (I.functors) _ h⟩

theorem srIndex_answers (I : SrIndex) (h : ∀ c ∈ P, (alpha φ I.base.alphabet).char2comp (φ c) = I.base.alphabet.char2comp c) :
    (srIndex φ I).count (P.map φ) = I.count P ∧
    (srIndex φ I).locate (P.map φ) = I.locate P :=
  ⟨count_rename (I.functors) _ h,
    locate_rename (I.functors) _ h⟩

theorem srIndexValid_answers (I : SrIndexValid) (h : ∀ c ∈ P, (alpha φ I.sr.base.alphabet).char2comp (φ c) = I.sr.base.alphabet.char2comp c) :
    (srIndexValid φ I).countMark (P.map φ) = I.countMark P ∧
    (srIndexValid φ I).locateMark (P.map φ) = I.locateMark P ∧
    (srIndexValid φ I).countArea (P.map φ) = I.countArea P ∧
    (srIndexValid φ I).locateArea (P.map φ) = I.locateArea P :=
  ⟨count_rename (I.functorsMark) _ h,
    locate_rename (I.functorsMark) _ h,
    count_rename (I.functorsArea) _ h,
    locate_rename (I.functorsArea) _ h⟩

theorem rcsaBwt_answers (I : RCSA) (h : ∀ c ∈ P, (alpha φ I.alphabet).char2comp (φ c) = I.alphabet.char2comp c) :
    RCSABwt.count (rcsa φ I) (P.map φ) = RCSABwt.count I P ∧ RCSABwt.locate (rcsa φ I) (P.map φ) = RCSABwt.locate I P :=
  ⟨count_rename (RCSABwt.functors I) _ h, locate_rename (RCSABwt.functors I) _ h⟩

theorem rcsaPsi_answers (I : RCSA) (h : ∀ c ∈ P, (alpha φ I.alphabet).char2comp (φ c) = I.alphabet.char2comp c) :
    RCSAPsi.count (rcsa φ I) (P.map φ) = RCSAPsi.count I P ∧ RCSAPsi.locate (rcsa φ I) (P.map φ) = RCSAPsi.locate I P :=
  ⟨count_rename (RCSAPsi.functors I) _ h, locate_rename (RCSAPsi.functors I) _ h⟩

theorem splitRunLoop_rename (I : SrCSA) (last : Nat) : ∀ f c m, (srcsa φ I).splitRunLoop last f c m = I.splitRunLoop last f c m := by
  intro f
  induction f with
  | zero => intros; rfl
  | succ f ih =>
    intro c m
    unfold SrCSA.splitRunLoop
    simp only [ih]
    rfl

theorem splitRun_rename (I : SrCSA) : (srcsa φ I).splitRun = I.splitRun := by
  funext run
  unfold SrCSA.splitRun
  simp only [splitRunLoop_rename]
  rfl

theorem rangePhi_rename (I : SrCSA) (O : ForwOps) (phi : Nat → Option (Nat × Bool)) : (srcsa φ I).rangePhi O phi = I.rangePhi O phi := by
  unfold SrCSA.rangePhi
  rw [splitRun_rename]
  rfl

theorem phi_rename (I : SrCSA) : (srcsa φ I).phi = I.phi := rfl
theorem cutLoop_rename (I : SrCSA) (last : Nat) : ∀ k i r, (srcsa φ I).cutLoop last k i r = I.cutLoop last k i r := by
  intro k
  induction k with
  | zero => intros; rfl
  | succ k ih =>
    intro i r
    unfold SrCSA.cutLoop
    simp only [ih]
    rfl

theorem posOps_rename (I : SrCSA) : (srcsa φ I).posOps = I.posOps := by
  have e : (srcsa φ I).cutRange = I.cutRange := by
    funext a b
    unfold SrCSA.cutRange
    simp only [cutLoop_rename]
    rfl
  unfold SrCSA.posOps
  rw [e]
  rfl

theorem slimOps_rename (I : SrCSA) : (srcsa φ I).slimOps = I.slimOps := rfl

theorem phiForRange_rename (I : SrCSA) (O : ForwOps) : (srcsa φ I).phiForRange O = I.phiForRange O := by
  unfold SrCSA.phiForRange
  rw [phi_rename, rangePhi_rename]

theorem functorsWith_rename (I : SrCSA) (O : ForwOps) (f : Range → Nat → Option (List Nat)) :
    (srcsa φ I).functorsWith O f = { I.functorsWith O f with getSymbol := (alpha φ I.alphabet).char2comp } := rfl

theorem srcsa_answers (I : SrCSA) (h : ∀ c ∈ P, (alpha φ I.alphabet).char2comp (φ c) = I.alphabet.char2comp c) :
    (srcsa φ I).count (P.map φ) = I.count P ∧ (srcsa φ I).locate (P.map φ) = I.locate P ∧
    (srcsa φ I).countSlim (P.map φ) = I.countSlim P ∧ (srcsa φ I).locateSlim (P.map φ) = I.locateSlim P := by
  unfold SrCSA.count SrCSA.locate SrCSA.countSlim SrCSA.locateSlim
  simp only [posOps_rename, slimOps_rename, phiForRange_rename, functorsWith_rename]
  exact ⟨count_rename _ _ h, locate_rename _ _ h, count_rename _ _ h, locate_rename _ _ h⟩

theorem functorsWithValid_rename (I : SrCSAValid) (O : ForwOps) (f : Nat → Option (Nat × Bool)) :
    (srcsaValid φ I).functorsWith O f = { I.functorsWith O f with getSymbol := (alpha φ I.csa.alphabet).char2comp } := by
  have e : (srcsaValid φ I).phiForRange O f = I.phiForRange O f := by
    unfold SrCSAValid.phiForRange
    rw [show (srcsaValid φ I).csa.rangePhi O f = I.csa.rangePhi O f from rangePhi_rename I.csa O f]
  unfold SrCSAValid.functorsWith
  rw [e]
  rfl

theorem srcsaValid_answers (I : SrCSAValid) (h : ∀ c ∈ P, (alpha φ I.csa.alphabet).char2comp (φ c) = I.csa.alphabet.char2comp c) :
    ((srcsaValid φ I).countMark (P.map φ) = I.countMark P ∧ (srcsaValid φ I).locateMark (P.map φ) = I.locateMark P) ∧
    ((srcsaValid φ I).countArea (P.map φ) = I.countArea P ∧ (srcsaValid φ I).locateArea (P.map φ) = I.locateArea P) ∧
    ((srcsaValid φ I).countMarkSlim (P.map φ) = I.countMarkSlim P ∧ (srcsaValid φ I).locateMarkSlim (P.map φ) = I.locateMarkSlim P) ∧
    ((srcsaValid φ I).countAreaSlim (P.map φ) = I.countAreaSlim P ∧ (srcsaValid φ I).locateAreaSlim (P.map φ) = I.locateAreaSlim P) := by
  have e1 : (srcsaValid φ I).csa.posOps = I.csa.posOps := posOps_rename I.csa
  have e2 : (srcsaValid φ I).csa.slimOps = I.csa.slimOps := rfl
  have e3 : (srcsaValid φ I).phiMark = I.phiMark := rfl
  have e4 : (srcsaValid φ I).phiArea = I.phiArea := rfl
  unfold SrCSAValid.countMark SrCSAValid.locateMark SrCSAValid.countArea SrCSAValid.locateArea SrCSAValid.countMarkSlim SrCSAValid.locateMarkSlim
    SrCSAValid.countAreaSlim SrCSAValid.locateAreaSlim
  simp only [e1, e2, e3, e4, functorsWithValid_rename]
  exact ⟨⟨count_rename _ _ h, locate_rename _ _ h⟩, ⟨count_rename _ _ h, locate_rename _ _ h⟩, ⟨count_rename _ _ h, locate_rename _ _ h⟩,
    ⟨count_rename _ _ h, locate_rename _ _ h⟩⟩

end

/-- two results of a construction answer alike up to the renaming -/
def Alike (φ : Nat → Nat) (T : List Nat) : Option Queries → Option Queries → Prop
  | none, none => True
  | some q, some q' => ∀ P : List Nat, (∀ c ∈ P, c ∉ T → φ c ∉ T.map φ) → q'.count (P.map φ) = q.count P ∧ q'.locate (P.map φ) = q.locate P
  | _, _ => False

theorem alike (h : ∀ a ∈ T, ∀ b ∈ T, a < b → φ a < φ b) (hn : T ≠ []) (t : IndexType) (s : Nat) :
    Alike φ T (buildIndex t T sa s) (buildIndex t (T.map φ) sa s) := by
  have key : ∀ {A : Alphabet} {P : List Nat}, (∀ c ∈ P, c ∉ T → φ c ∉ T.map φ) → (∀ {c : Nat}, c ∈ A.chars → c ∈ T) →
      ∀ c ∈ P, (alpha φ A).char2comp (φ c) = A.char2comp c := by
    intro A P hP hA c hc
    refine comp_rename (fun a ha he => ?_)
    by_cases hcT : c ∈ T
    · exact inj h (hA ha) hcT he
    · exact absurd (List.mem_map.2 ⟨a, hA ha, he⟩) (hP c hc hcT)
  cases t
  case rIndex =>
    rw [buildIndex, buildIndex, rIndex_build h hn]
    cases hb : RIndex.build T sa with
    | none => trivial
    | some I => exact fun P hP => (rIndex_answers (P := P) I (key hP (fun hc => rIndex_chars hn hb hc)))
  case srIndex =>
    rw [buildIndex, buildIndex, srIndex_build h hn]
    cases hb : SrIndex.build T sa s with
    | none => trivial
    | some I => exact fun P hP => (srIndex_answers (P := P) I (key hP (fun hc => srIndex_chars hn hb hc)))
  case srIndexValidMark =>
    rw [buildIndex, buildIndex, srIndexValid_build h hn]
    cases hb : SrIndexValid.build T sa s with
    | none => trivial
    | some I => exact fun P hP => (srIndexValid_answers (P := P) I (key hP (fun hc => srIndexValid_chars hn hb hc)))|> fun z => ⟨z.1, z.2.1⟩
  case srIndexValidArea =>
    rw [buildIndex, buildIndex, srIndexValid_build h hn]
    cases hb : SrIndexValid.build T sa s with
    | none => trivial
    | some I => exact fun P hP => (srIndexValid_answers (P := P) I (key hP (fun hc => srIndexValid_chars hn hb hc))).2.2
  case rcsaWithBWTRun =>
    rw [buildIndex, buildIndex, rcsaBwt_build h hn]
    cases hb : RCSABwt.build T sa with
    | none => trivial
    | some I => exact fun P hP => (rcsaBwt_answers (P := P) I (key hP (fun hc => rcsaBwt_chars hn hb hc)))
  case rcsaWithPsiRun =>
    rw [buildIndex, buildIndex, rcsaPsi_build h hn]
    cases hb : RCSAPsi.build T sa with
    | none => trivial
    | some I => exact fun P hP => (rcsaPsi_answers (P := P) I (key hP (fun hc => rcsaPsi_chars hn hb hc)))
  case srCSA =>
    rw [buildIndex, buildIndex, srcsa_build h hn]
    cases hb : SrCSA.build T sa s with
    | none => trivial
    | some I => exact fun P hP => (srcsa_answers (P := P) I (key hP (fun hc => srcsa_chars hn hb hc)))|> fun z => ⟨z.1, z.2.1⟩
  case srCSASlim =>
    rw [buildIndex, buildIndex, srcsa_buildSlim h hn]
    cases hb : SrCSA.buildSlim T sa s with
    | none => trivial
    | some I => exact fun P hP => (srcsa_answers (P := P) I (key hP (fun hc => slim_chars hn hb hc))).2.2
  case srCSAWithPsiRun =>
    rw [buildIndex, buildIndex, srcsa_buildPsi h hn]
    cases hb : SrCSA.buildPsi T sa s with
    | none => trivial
    | some I => exact fun P hP => (srcsa_answers (P := P) I (key hP (fun hc => psi_chars hn hb hc))).2.2
  case srCSAValidMark =>
    rw [buildIndex, buildIndex, srcsaValid_build h hn]
    cases hb : SrCSAValid.build T sa s with
    | none => trivial
    | some I => exact fun P hP => (srcsaValid_answers (P := P) I (key hP (fun hc => srcsaValid_chars hn hb hc))).1
  case srCSAValidArea =>
    rw [buildIndex, buildIndex, srcsaValid_build h hn]
    cases hb : SrCSAValid.build T sa s with
    | none => trivial
    | some I => exact fun P hP => (srcsaValid_answers (P := P) I (key hP (fun hc => srcsaValid_chars hn hb hc))).2.1
  case srCSASlimValidMark =>
    rw [buildIndex, buildIndex, srcsaValid_buildSlim h hn]
    cases hb : SrCSAValid.buildSlim T sa s with
    | none => trivial
    | some I => exact fun P hP => (srcsaValid_answers (P := P) I (key hP (fun hc => slimValid_chars hn hb hc))).2.2.1
  case srCSASlimValidArea =>
    rw [buildIndex, buildIndex, srcsaValid_buildSlim h hn]
    cases hb : SrCSAValid.buildSlim T sa s with
    | none => trivial
    | some I => exact fun P hP => (srcsaValid_answers (P := P) I (key hP (fun hc => slimValid_chars hn hb hc))).2.2.2
  case psiValidMark =>
    rw [buildIndex, buildIndex, srcsaValid_buildPsi h hn]
    cases hb : SrCSAValid.buildPsi T sa s with
    | none => trivial
    | some I => exact fun P hP => (srcsaValid_answers (P := P) I (key hP (fun hc => psiValid_chars hn hb hc))).2.2.1
  case psiValidArea =>
    rw [buildIndex, buildIndex, srcsaValid_buildPsi h hn]
    cases hb : SrCSAValid.buildPsi T sa s with
    | none => trivial
    | some I => exact fun P hP => (srcsaValid_answers (P := P) I (key hP (fun hc => psiValid_chars hn hb hc))).2.2.2

end Rename
end Sri
