import Verif.Proofs.Around
import Verif.Props.RIndex
import Verif.Props.SrIndex
import Verif.Props.RCSA
import Verif.Props.SrCSA
import Verif.Props.CSARaw
/-! # What every index answers for every pattern, absent characters included

C14 asks that a pattern with a character that is not in the text is answered with no occurrence. The theorems here say exactly what is
answered instead: the pattern is looked up with the terminator in place of its absent characters, in the text read as a circle. So C14
holds for a pattern exactly when that looked-up pattern is not read around the end of the text. -/
namespace Sri
set_option autoImplicit false

theorem THof_len {T sa : List Nat} {β : Type} {den : β → Nat → Prop} {Q : List Nat} {r : Range} {d : StepData β}
    (h : RIndex.THof den T sa Q 0 r d) (hQ : Q.length ≤ T.length) : d.step < T.length := by
  obtain ⟨q, -, -, -, h4, -⟩ := h; omega

/-- the reports of a one-element range, given its toehold -/
theorem computeAll_one {β : Type} {g : Range → Nat → Option (List Nat)} {toehold : StepData β → Option Nat} {sa : List Nat} {r : Range}
    {d : StepData β} (h1 : r.stop = r.start + 1) (ht : toehold d = some (saAt sa (r.stop - 1))) (hg : ∀ a k, g ⟨a, a⟩ k = some []) :
    computeAllValues g toehold RIndex.shrink r d = some [saAt sa r.start] := by
  rw [h1, Nat.add_sub_cancel] at ht
  simp only [computeAllValues, ht, Option.bind_eq_bind, Option.bind_some, RIndex.shrink, h1, csub, Nat.le_add_left, if_true,
    Nat.add_sub_cancel, Option.pure_def, hg]

theorem SrIndex.OK.around {I : SrIndex} {T sa T' K : List Nat} (hT : IsText T) (ok : I.OK T' sa K) (hc : Compact T sa I.base.alphabet T')
    {g : Range → Nat → Option (List Nat)} (hex : Exact (I.functorsWith g).count (I.functorsWith g).locate T sa List.reverse)
    (hg : ∀ a k, g ⟨a, a⟩ k = some []) :
    AnswersAround (I.functorsWith g).count (I.functorsWith g).locate T sa List.reverse := by
  refine answersAround hT hc (F := I.functorsWith g) rfl (ok.nav.backSearchOf (SrIndex.navigates I g))
    (ok.nav.toeholdAllOf SrIndex.creates (SrIndex.navigates I g) rfl (fun _ => rfl)) hex rfl (fun _ => rfl) ?_
  intro Q r d h1 h2 h3 hth
  exact computeAll_one h1 (ok.toehold_eq hth (THof_len hth h3)) hg

theorem RCSA.OK.around {I : RCSA} {T sa T' ord : List Nat} {lnk : Nat → Nat} {β : Type}
    {create : Range → Nat → RangeRunLF → Nat → Option (StepData β)} {init : StepData β} {getV : β → Option Nat}
    {den : β → Nat → Prop} (hT : IsText T) (h : I.OK T' sa ord lnk) (hc : Compact T sa I.alphabet T')
    (hv : Variant T' sa den create init getV) :
    AnswersAround (I.functorsWith create init getV).count (I.functorsWith create init getV).locate T sa id := by
  refine answersAround hT hc (F := I.functorsWith create init getV) rfl (h.nav.backSearchOf (navigates I create init getV))
    (h.nav.toeholdAllOf hv.creates (navigates I create init getV) rfl (fun _ => hv.init)) (h.exact hc hv) rfl (fun _ => rfl) ?_
  intro Q r d h1 h2 h3 hth
  have h1 : r.stop = r.start + 1 := h1
  have := h.computeAll_up (r := r) (by omega) h2 (h.toehold_eq hv hth (hth.step_lt h3))
  refine this.trans ?_
  rw [valuesUp, h1, Nat.add_sub_cancel_left]; rfl

theorem SrCSA.OK.around {I : SrCSA} {T sa T' K : List Nat} {O : ForwOps} {Good : FRun → Prop} {den : FData → Nat → Prop}
    {Strong : FData → Prop} {g : Range → Nat → Option (List Nat)} (hT : IsText T) (h : I.OK T' sa K)
    (ho : OpsOK O T' sa K Good den Strong) (hc : Compact T sa I.alphabet T')
    (hg : ∀ a b, 1 ≤ a → a ≤ b → b ≤ T'.length → g ⟨a, b⟩ (saAt sa (a-1)) = some (up sa a (b - a))) :
    AnswersAround (I.functorsWith O g).count (I.functorsWith O g).locate T sa id := by
  refine answersAround hT hc (F := I.functorsWith O g) rfl (h.nav.backSearchOf (navigates I O g))
    (h.nav.toeholdAllOf ho.creates (navigates I O g) rfl (fun _ => rfl)) (h.exact ho hc hg) rfl (fun _ => rfl) ?_
  intro Q r d h1 h2 h3 hth
  have h1 : r.stop = r.start + 1 := h1
  have := h.computeAll_eq ho hg (r := r) (by omega) h2 hth (hth.step_lt h3)
  refine this.trans ?_
  change some (valuesUp sa r.start r.stop) = some [saAt sa r.start]
  rw [valuesUp, h1, Nat.add_sub_cancel_left]; rfl

-- the pattern `x a b` with `x` absent is answered although it does not occur: the text starts with `a b`
example : OccursAround (asLookedUp [9,1,2] exText) exText 11 ∧ occurrences [9,1,2] exText = [] := by decide
example : OccursAround (asLookedUp [2,3,9,1,2] exText) exText 9 := by decide
example : ∀ p, p < exText.length → ¬ OccursAround (asLookedUp [1,9,1] exText) exText p := by decide

theorem RIndex.OK.around {I : RIndex} {T sa T' : List Nat} (hT : IsText T) (ok : I.OK T' sa) (hc : Compact T sa I.alphabet T')
    (hex : Exact I.functors.count I.functors.locate T sa List.reverse) :
    AnswersAround I.functors.count I.functors.locate T sa List.reverse := by
  refine answersAround hT hc (F := I.functors) rfl ok.backSearchAll
    (ok.toeholdAllOf RIndex.creates (RIndex.navigates_functors I) rfl (fun _ => rfl)) hex rfl (fun _ => rfl) ?_
  intro Q r d h1 h2 h3 hth
  exact computeAll_one h1 (ok.toehold_eq hth (THof_len hth h3)) (fun a k => by simp [RIndex.phiForRange, phiLoop])

/-- **C14** (RIndex), exactly: what is answered for every pattern, and for patterns with absent characters in particular. -/
theorem c14_rindex_around (T sa : List Nat) (hT : IsText T) (hsa : IsSA T sa) :
    ∃ I, RIndex.build T sa = some I ∧ AnswersAround I.count I.locate T sa List.reverse ∧ AbsentExactly I.count I.locate T := by
  obtain ⟨I, T', hb, ok, hc⟩ := RIndex.build_ok hT hsa
  obtain ⟨I', hb', hex⟩ := rindex_exact hT hsa
  rw [hb, Option.some_inj] at hb'
  subst hb'
  have h : AnswersAround I.count I.locate T sa List.reverse := ok.around hT hc hex
  exact ⟨I, hb, h, h.absent hT hsa rfl (fun _ => rfl)⟩

example : (RIndex.build exText exSA).bind (·.locate [2,3,9,1,2]) = some [9] := by decide +kernel
example : (RIndex.build exText exSA).bind (·.locate [1,9,1]) = some [] := by decide +kernel

/-- **C14** (SrIndex), exactly: what is answered for every pattern, and for patterns with absent characters in particular. -/
theorem c14_srindex_around (T sa : List Nat) (hT : IsText T) (hsa : IsSA T sa) (s : Nat) :
    ∃ I, SrIndex.build T sa s = some I ∧ AnswersAround I.count I.locate T sa List.reverse ∧ AbsentExactly I.count I.locate T := by
  obtain ⟨I, T', K, hb, ok, -, hc, -⟩ := SrIndex.build_ok hT hsa s
  have h := ok.around hT hc (ok.exactWith hc ok.phiForRange_eq) (fun a k => by simp [SrIndex.phiForRange])
  exact ⟨I, hb, h, h.absent hT hsa rfl (fun _ => rfl)⟩

example : (SrIndex.build exText exSA 6).bind (fun I => I.locate [2,3,9,1,2]) = some [9] := by decide +kernel
example : (SrIndex.build exText exSA 6).bind (fun I => I.locate [1,9,1]) = some [] := by decide +kernel

/-- **C14** (SrIndexValidMark), exactly: what is answered for every pattern, and for patterns with absent characters in particular. -/
theorem c14_validmark_around (T sa : List Nat) (hT : IsText T) (hsa : IsSA T sa) (s : Nat) :
    ∃ I, SrIndexValid.build T sa s = some I ∧ AnswersAround I.countMark I.locateMark T sa List.reverse ∧ AbsentExactly I.countMark I.locateMark T := by
  obtain ⟨I, T', K, V, hb, ok, -, hc⟩ := SrIndexValid.build_ok hT hsa s
  have h := ok.sr.around hT hc (ok.sr.exactWith hc (ok.phiForRange_eq ok.phiOK_mark ok.phiValid_mark)) (fun a k => by simp [SrIndexValid.phiForRange])
  exact ⟨I, hb, h, h.absent hT hsa rfl (fun _ => rfl)⟩

example : (SrIndexValid.build exText exSA 6).bind (fun I => I.locateMark [2,3,9,1,2]) = some [9] := by decide +kernel
example : (SrIndexValid.build exText exSA 6).bind (fun I => I.locateMark [1,9,1]) = some [] := by decide +kernel

/-- **C14** (SrIndexValidArea), exactly: what is answered for every pattern, and for patterns with absent characters in particular. -/
theorem c14_validarea_around (T sa : List Nat) (hT : IsText T) (hsa : IsSA T sa) (s : Nat) :
    ∃ I, SrIndexValid.build T sa s = some I ∧ AnswersAround I.countArea I.locateArea T sa List.reverse ∧ AbsentExactly I.countArea I.locateArea T := by
  obtain ⟨I, T', K, V, hb, ok, -, hc⟩ := SrIndexValid.build_ok hT hsa s
  have h := ok.sr.around hT hc (ok.sr.exactWith hc (ok.phiForRange_eq ok.phiOK_area ok.phiValid_area)) (fun a k => by simp [SrIndexValid.phiForRange])
  exact ⟨I, hb, h, h.absent hT hsa rfl (fun _ => rfl)⟩

example : (SrIndexValid.build exText exSA 6).bind (fun I => I.locateArea [2,3,9,1,2]) = some [9] := by decide +kernel
example : (SrIndexValid.build exText exSA 6).bind (fun I => I.locateArea [1,9,1]) = some [] := by decide +kernel

/-- **C14** (RCSAWithBWTRun), exactly: what is answered for every pattern, and for patterns with absent characters in particular. -/
theorem c14_rcsabwt_around (T sa : List Nat) (hT : IsText T) (hsa : IsSA T sa) (hn : T.length < 2^64) :
    ∃ I, RCSABwt.build T sa = some I ∧ AnswersAround (RCSABwt.count I) (RCSABwt.locate I) T sa id ∧ AbsentExactly (RCSABwt.count I) (RCSABwt.locate I) T := by
  obtain ⟨I, T', ord, lnk, hb, ok, hc, hv⟩ := rcsabwt_ok hT hsa hn
  have h := ok.around hT hc hv
  exact ⟨I, hb, h, h.absent hT hsa rfl (fun _ => rfl)⟩

example : (RCSABwt.build exText exSA).bind (fun I => RCSABwt.locate I [2,3,9,1,2]) = some [9] := by decide +kernel
example : (RCSABwt.build exText exSA).bind (fun I => RCSABwt.locate I [1,9,1]) = some [] := by decide +kernel

/-- **C14** (RCSAWithPsiRun), exactly: what is answered for every pattern, and for patterns with absent characters in particular. -/
theorem c14_rcsapsi_around (T sa : List Nat) (hT : IsText T) (hsa : IsSA T sa) (hn : T.length < 2^64) :
    ∃ I, RCSAPsi.build T sa = some I ∧ AnswersAround (RCSAPsi.count I) (RCSAPsi.locate I) T sa id ∧ AbsentExactly (RCSAPsi.count I) (RCSAPsi.locate I) T := by
  obtain ⟨I, T', ord, lnk, hb, ok, hc, hv⟩ := rcsapsi_ok hT hsa hn
  have h := ok.around hT hc hv
  exact ⟨I, hb, h, h.absent hT hsa rfl (fun _ => rfl)⟩

example : (RCSAPsi.build exText exSA).bind (fun I => RCSAPsi.locate I [2,3,9,1,2]) = some [9] := by decide +kernel
example : (RCSAPsi.build exText exSA).bind (fun I => RCSAPsi.locate I [1,9,1]) = some [] := by decide +kernel

/-- **C14** (SrCSA), exactly: what is answered for every pattern, and for patterns with absent characters in particular. -/
theorem c14_srcsa_around (T sa : List Nat) (hT : IsText T) (hsa : IsSA T sa) (hn : T.length < 2^64) (s : Nat) :
    ∃ I, SrCSA.build T sa s = some I ∧ AnswersAround I.count I.locate T sa id ∧ AbsentExactly I.count I.locate T := by
  obtain ⟨I, T', K, hb, ok, st, -, hc⟩ := SrCSA.build_ok hT hsa (lt_W64 hn) s
  have h := ok.around hT (ok.posOps st) hc (fun _ _ h1 h2 h3 => ok.rest (ok.posOps st) h1 h2 h3)
  exact ⟨I, hb, h, h.absent hT hsa rfl (fun _ => rfl)⟩

example : (SrCSA.build exText exSA 6).bind (fun I => I.locate [2,3,9,1,2]) = some [9] := by decide +kernel
example : (SrCSA.build exText exSA 6).bind (fun I => I.locate [1,9,1]) = some [] := by decide +kernel

/-- **C14** (SrCSASlim), exactly: what is answered for every pattern, and for patterns with absent characters in particular. -/
theorem c14_srcsaslim_around (T sa : List Nat) (hT : IsText T) (hsa : IsSA T sa) (hn : T.length < 2^64) (s : Nat) :
    ∃ I, SrCSA.buildSlim T sa s = some I ∧ AnswersAround I.countSlim I.locateSlim T sa id ∧ AbsentExactly I.countSlim I.locateSlim T := by
  obtain ⟨I, T', K, hb, ok, st, -, hc⟩ := SrCSA.buildSlim_ok hT hsa (lt_W64 hn) s
  have h := ok.around hT (ok.slimOps st) hc (fun _ _ h1 h2 h3 => ok.rest (ok.slimOps st) h1 h2 h3)
  exact ⟨I, hb, h, h.absent hT hsa rfl (fun _ => rfl)⟩

example : (SrCSA.buildSlim exText exSA 6).bind (fun I => I.locateSlim [2,3,9,1,2]) = some [9] := by decide +kernel
example : (SrCSA.buildSlim exText exSA 6).bind (fun I => I.locateSlim [1,9,1]) = some [] := by decide +kernel

/-- **C14** (SrCSAWithPsiRun), exactly: what is answered for every pattern, and for patterns with absent characters in particular. -/
theorem c14_srcsapsi_around (T sa : List Nat) (hT : IsText T) (hsa : IsSA T sa) (hn : T.length < 2^64) (s : Nat) :
    ∃ I, SrCSA.buildPsi T sa s = some I ∧ AnswersAround I.countSlim I.locateSlim T sa id ∧ AbsentExactly I.countSlim I.locateSlim T := by
  obtain ⟨I, T', K, hb, ok, st, -, hc⟩ := SrCSA.buildPsi_ok hT hsa (lt_W64 hn) s
  have h := ok.around hT (ok.slimOps st) hc (fun _ _ h1 h2 h3 => ok.rest (ok.slimOps st) h1 h2 h3)
  exact ⟨I, hb, h, h.absent hT hsa rfl (fun _ => rfl)⟩

example : (SrCSA.buildPsi exText exSA 6).bind (fun I => I.locateSlim [2,3,9,1,2]) = some [9] := by decide +kernel
example : (SrCSA.buildPsi exText exSA 6).bind (fun I => I.locateSlim [1,9,1]) = some [] := by decide +kernel

/-- **C14** (SrCSAValidMark<SrCSA>), exactly: what is answered for every pattern, and for patterns with absent characters in particular. -/
theorem c14_srcsamark_around (T sa : List Nat) (hT : IsText T) (hsa : IsSA T sa) (hn : T.length < 2^64) (s : Nat) :
    ∃ I, SrCSAValid.build T sa s = some I ∧ AnswersAround I.countMark I.locateMark T sa id ∧ AbsentExactly I.countMark I.locateMark T := by
  obtain ⟨I, T', K, V, hb, ok, st, -, hc⟩ := SrCSAValid.build_ok hT hsa (lt_W64 hn) s
  have h := ok.csa.around hT (ok.csa.posOps st) hc (fun _ _ h1 h2 h3 => ok.csa.restV (ok.csa.posOps st) ok.phiOK_mark ok.phiValid_mark rfl h1 h2 h3)
  exact ⟨I, hb, h, h.absent hT hsa rfl (fun _ => rfl)⟩

example : (SrCSAValid.build exText exSA 6).bind (fun I => I.locateMark [2,3,9,1,2]) = some [9] := by decide +kernel
example : (SrCSAValid.build exText exSA 6).bind (fun I => I.locateMark [1,9,1]) = some [] := by decide +kernel

/-- **C14** (SrCSAValidMark<SrCSASlim>), exactly: what is answered for every pattern, and for patterns with absent characters in particular. -/
theorem c14_srcsaslimmark_around (T sa : List Nat) (hT : IsText T) (hsa : IsSA T sa) (hn : T.length < 2^64) (s : Nat) :
    ∃ I, SrCSAValid.buildSlim T sa s = some I ∧ AnswersAround I.countMarkSlim I.locateMarkSlim T sa id ∧ AbsentExactly I.countMarkSlim I.locateMarkSlim T := by
  obtain ⟨I, T', K, V, hb, ok, st, -, hc⟩ := SrCSAValid.buildSlim_ok hT hsa (lt_W64 hn) s
  have h := ok.csa.around hT (ok.csa.slimOps st) hc (fun _ _ h1 h2 h3 => ok.csa.restV (ok.csa.slimOps st) ok.phiOK_mark ok.phiValid_mark rfl h1 h2 h3)
  exact ⟨I, hb, h, h.absent hT hsa rfl (fun _ => rfl)⟩

example : (SrCSAValid.buildSlim exText exSA 6).bind (fun I => I.locateMarkSlim [2,3,9,1,2]) = some [9] := by decide +kernel
example : (SrCSAValid.buildSlim exText exSA 6).bind (fun I => I.locateMarkSlim [1,9,1]) = some [] := by decide +kernel

/-- **C14** (SRCSAValidMark), exactly: what is answered for every pattern, and for patterns with absent characters in particular. -/
theorem c14_srcsapsimark_around (T sa : List Nat) (hT : IsText T) (hsa : IsSA T sa) (hn : T.length < 2^64) (s : Nat) :
    ∃ I, SrCSAValid.buildPsi T sa s = some I ∧ AnswersAround I.countMarkSlim I.locateMarkSlim T sa id ∧ AbsentExactly I.countMarkSlim I.locateMarkSlim T := by
  obtain ⟨I, T', K, V, hb, ok, st, -, hc⟩ := SrCSAValid.buildPsi_ok hT hsa (lt_W64 hn) s
  have h := ok.csa.around hT (ok.csa.slimOps st) hc (fun _ _ h1 h2 h3 => ok.csa.restV (ok.csa.slimOps st) ok.phiOK_mark ok.phiValid_mark rfl h1 h2 h3)
  exact ⟨I, hb, h, h.absent hT hsa rfl (fun _ => rfl)⟩

example : (SrCSAValid.buildPsi exText exSA 6).bind (fun I => I.locateMarkSlim [2,3,9,1,2]) = some [9] := by decide +kernel
example : (SrCSAValid.buildPsi exText exSA 6).bind (fun I => I.locateMarkSlim [1,9,1]) = some [] := by decide +kernel

/-- **C14** (SrCSAValidArea<SrCSA>), exactly: what is answered for every pattern, and for patterns with absent characters in particular. -/
theorem c14_srcsaarea_around (T sa : List Nat) (hT : IsText T) (hsa : IsSA T sa) (hn : T.length < 2^64) (s : Nat) :
    ∃ I, SrCSAValid.build T sa s = some I ∧ AnswersAround I.countArea I.locateArea T sa id ∧ AbsentExactly I.countArea I.locateArea T := by
  obtain ⟨I, T', K, V, hb, ok, st, -, hc⟩ := SrCSAValid.build_ok hT hsa (lt_W64 hn) s
  have h := ok.csa.around hT (ok.csa.posOps st) hc (fun _ _ h1 h2 h3 => ok.csa.restV (ok.csa.posOps st) ok.phiOK_area ok.phiValid_area rfl h1 h2 h3)
  exact ⟨I, hb, h, h.absent hT hsa rfl (fun _ => rfl)⟩

example : (SrCSAValid.build exText exSA 6).bind (fun I => I.locateArea [2,3,9,1,2]) = some [9] := by decide +kernel
example : (SrCSAValid.build exText exSA 6).bind (fun I => I.locateArea [1,9,1]) = some [] := by decide +kernel

/-- **C14** (SrCSAValidArea<SrCSASlim>), exactly: what is answered for every pattern, and for patterns with absent characters in particular. -/
theorem c14_srcsaslimarea_around (T sa : List Nat) (hT : IsText T) (hsa : IsSA T sa) (hn : T.length < 2^64) (s : Nat) :
    ∃ I, SrCSAValid.buildSlim T sa s = some I ∧ AnswersAround I.countAreaSlim I.locateAreaSlim T sa id ∧ AbsentExactly I.countAreaSlim I.locateAreaSlim T := by
  obtain ⟨I, T', K, V, hb, ok, st, -, hc⟩ := SrCSAValid.buildSlim_ok hT hsa (lt_W64 hn) s
  have h := ok.csa.around hT (ok.csa.slimOps st) hc (fun _ _ h1 h2 h3 => ok.csa.restV (ok.csa.slimOps st) ok.phiOK_area ok.phiValid_area rfl h1 h2 h3)
  exact ⟨I, hb, h, h.absent hT hsa rfl (fun _ => rfl)⟩

example : (SrCSAValid.buildSlim exText exSA 6).bind (fun I => I.locateAreaSlim [2,3,9,1,2]) = some [9] := by decide +kernel
example : (SrCSAValid.buildSlim exText exSA 6).bind (fun I => I.locateAreaSlim [1,9,1]) = some [] := by decide +kernel

/-- **C14** (SRCSAValidArea), exactly: what is answered for every pattern, and for patterns with absent characters in particular. -/
theorem c14_srcsapsiarea_around (T sa : List Nat) (hT : IsText T) (hsa : IsSA T sa) (hn : T.length < 2^64) (s : Nat) :
    ∃ I, SrCSAValid.buildPsi T sa s = some I ∧ AnswersAround I.countAreaSlim I.locateAreaSlim T sa id ∧ AbsentExactly I.countAreaSlim I.locateAreaSlim T := by
  obtain ⟨I, T', K, V, hb, ok, st, -, hc⟩ := SrCSAValid.buildPsi_ok hT hsa (lt_W64 hn) s
  have h := ok.csa.around hT (ok.csa.slimOps st) hc (fun _ _ h1 h2 h3 => ok.csa.restV (ok.csa.slimOps st) ok.phiOK_area ok.phiValid_area rfl h1 h2 h3)
  exact ⟨I, hb, h, h.absent hT hsa rfl (fun _ => rfl)⟩

example : (SrCSAValid.buildPsi exText exSA 6).bind (fun I => I.locateAreaSlim [2,3,9,1,2]) = some [9] := by decide +kernel
example : (SrCSAValid.buildPsi exText exSA 6).bind (fun I => I.locateAreaSlim [1,9,1]) = some [] := by decide +kernel

theorem CSARaw.OK.around {I : CSARaw} {T sa T' : List Nat} (hT : IsText T) (h : I.OK T' sa) (hc : Compact T sa I.alphabet T') :
    AnswersAround I.count I.locate T sa id := by
  refine answersAround hT hc (F := I.functors) rfl (h.nav.backSearchOf (CSARaw.navigates I))
    (h.nav.toeholdAllOf (CSARaw.OK.creates T' sa) (CSARaw.navigates I) rfl (fun _ => rfl)) (h.exact hc) rfl (fun _ => rfl) ?_
  intro Q r d h1 h2 h3 _
  have h1 : r.stop = r.start + 1 := h1
  refine (CSARaw.computeAll_eq hc.isSA h.sa d h2 (by omega)).trans ?_
  change some (valuesUp sa r.start r.stop) = some [saAt sa r.start]
  rw [valuesUp, h1, Nat.add_sub_cancel_left]; rfl

/-- **C48** (and C14 for CSARaw), exactly: what is answered for every pattern. -/
theorem c48_around (T sa : List Nat) (hT : IsText T) (hsa : IsSA T sa) (hn : T.length < 2^64) :
    ∃ I, CSARaw.build T sa = some I ∧ AnswersAround I.count I.locate T sa id ∧ AbsentExactly I.count I.locate T := by
  obtain ⟨I, T', hb, ok, hc⟩ := CSARaw.build_ok hT hsa (lt_W64 hn)
  have h := ok.around hT hc
  exact ⟨I, hb, h, h.absent hT hsa rfl (fun _ => rfl)⟩

example : (CSARaw.build exText exSA).bind (·.locate [2,3,9,1,2]) = some [9] := by decide +kernel

end Sri
