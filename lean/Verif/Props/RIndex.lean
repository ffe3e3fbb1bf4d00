import Verif.Proofs.RIndex
/-! # Properties of RIndex -/
namespace Sri
set_option autoImplicit false

/-- sample text `abcabcababc$` as numbers, with its suffix array -/
def exText : List Nat := [1,2,3,1,2,3,1,2,1,2,3,0]
def exSA : List Nat := [11,6,8,3,0,7,9,4,1,10,5,2]

example : IsText exText := ⟨[1,2,3,1,2,3,1,2,1,2,3], rfl, by decide⟩
example : IsSA exText exSA := by refine ⟨by decide, by decide⟩
example : IsPattern [1,2] exText := by decide

/-- everything about one RIndex, from which the properties below are read off -/
theorem rindex_exact {T sa : List Nat} (hT : IsText T) (hsa : IsSA T sa) :
    ∃ I, RIndex.build T sa = some I ∧ ∀ P, IsPattern P T →
      ∃ a b, I.count P = some (a, b) ∧ IsInterval P T sa a b ∧ (saSlice sa a b).Perm (occurrences P T) ∧
        I.locate P = some (saSlice sa a b).reverse := by
  obtain ⟨I, T', hb, ok, hc⟩ := RIndex.build_ok hT hsa
  refine ⟨I, hb, fun P hP => ?_⟩
  obtain ⟨x, y, e1, e2, e3, e4⟩ := exact_of hc (F := I.functors) rfl ok.backSearch ok.toeholdSpec
    (out := valuesDown sa) (fun Q r d h1 h2 h3 h4 h5 => ok.computeAll_eq h1 h2 h3 h4 h5) hP
  refine ⟨x, y, e1, e2, e3, ?_⟩
  have hy : y ≤ T'.length := by have := e2.2.1; rwa [hc.isSA.length] at this
  rw [valuesDown_eq hc.isSA hy] at e4
  change I.functors.locate P = _
  rw [e4]
  by_cases h : x < y
  · rw [if_pos h]
  · rw [if_neg h, saSlice_nil h]; rfl

/-- **C01** (RIndex): the width of the range is the number of occurrences. -/
theorem c01_rindex_count (T sa : List Nat) (hT : IsText T) (hsa : IsSA T sa) :
    ∃ I, RIndex.build T sa = some I ∧ ∀ P, IsPattern P T →
      ∃ a b, I.count P = some (a, b) ∧ a ≤ b ∧ b - a = (occurrences P T).length := by
  obtain ⟨I, hb, h⟩ := rindex_exact hT hsa
  refine ⟨I, hb, fun P hP => ?_⟩
  obtain ⟨a, b, e1, e2, e3, -⟩ := h P hP
  refine ⟨a, b, e1, e2.1, ?_⟩
  rw [← e3.length_eq, saSlice_length e2.2.1]

example : (RIndex.build exText exSA).bind (·.count [1,2]) = some (1, 5) := by decide
example : (occurrences [1,2] exText).length = 4 := by decide

/-- **C02** (RIndex): the range is the suffix-array interval of the pattern. -/
theorem c02_rindex_interval (T sa : List Nat) (hT : IsText T) (hsa : IsSA T sa) :
    ∃ I, RIndex.build T sa = some I ∧ ∀ P, IsPattern P T →
      ∃ a b, I.count P = some (a, b) ∧ IsInterval P T sa a b := by
  obtain ⟨I, hb, h⟩ := rindex_exact hT hsa
  refine ⟨I, hb, fun P hP => ?_⟩
  obtain ⟨a, b, e1, e2, -, -⟩ := h P hP
  exact ⟨a, b, e1, e2⟩

/-- **C03**: RIndex::Locate returns every starting position exactly once and nothing else. -/
theorem c03_rindex_locate (T sa : List Nat) (hT : IsText T) (hsa : IsSA T sa) :
    ∃ I, RIndex.build T sa = some I ∧ ∀ P, IsPattern P T →
      ∃ l, I.locate P = some l ∧ l.Perm (occurrences P T) := by
  obtain ⟨I, hb, h⟩ := rindex_exact hT hsa
  refine ⟨I, hb, fun P hP => ?_⟩
  obtain ⟨a, b, -, -, e3, e4⟩ := h P hP
  exact ⟨_, e4, (List.reverse_perm _).trans e3⟩

example : (RIndex.build exText exSA).bind (·.locate [1,2]) = some [0, 3, 8, 6] := by decide
example : occurrences [1,2] exText = [0, 3, 6, 8] := by decide
-- a pattern over the characters of the text that does not occur
example : IsPattern [3,3] exText := by decide
example : (RIndex.build exText exSA).bind (·.locate [3,3]) = some [] := by decide

/-- **C14** violated: a character that is not in the text is looked up as the terminator. Count of such a single character is one and
    Locate reports the terminator's position, for every text. -/
theorem c14_rindex_absent_violation (T sa : List Nat) (hT : IsText T) (hsa : IsSA T sa) (x : Nat) (hx : x ∉ T) :
    ∃ I, RIndex.build T sa = some I ∧ I.count [x] = some (0, 1) ∧ I.locate [x] = some [T.length - 1] ∧
      occurrences [x] T = [] := by
  obtain ⟨I, T', hb, ok, hc⟩ := RIndex.build_ok hT hsa
  have hn := ok.text.pos
  have h0 : (0 : Nat) ∈ T' := by obtain ⟨u, rfl, _⟩ := hc.text; simp
  have hsym : I.functors.getSymbol x = 0 := hc.absent x hx
  refine ⟨I, hb, ?_, ?_, ?_⟩
  · exact (count_absent ok.text ok.isSA ok.backSearchAll hsym [] (by simp) []).1 (by simp [OccursAt])
  · obtain ⟨nr, f1, f2⟩ := ok.backSearchAll.lf ⟨0, I.n⟩ 0 h0 (by rw [ok.n]; exact hn) (by rw [ok.n]; exact Nat.le_refl _)
    have hz := (zero_step ok.text ok.isSA (isRange_nil ok.isSA)).1 (by simp [OccursAt])
    have hfull : I.functors.bounds ⟨0, I.n⟩ = (0, T'.length) := by rw [← ok.n]; rfl
    rw [hfull] at f2
    rw [hz.1, hz.2] at f2
    have g1 : nr.start.value = 0 := congrArg Prod.fst f2
    have g2 : nr.stop.value = 1 := congrArg Prod.snd f2
    have f1' : I.lf ⟨0, T'.length⟩ 0 = some nr := by rw [← ok.n]; exact f1
    obtain ⟨d0, hd0, hth⟩ := ok.create RIndex.creates (i := 0) h0 hn (Nat.le_refl _) f1' (Or.inr rfl) []
    have hd1 : d0 = { step := 0, run := { c := 0, lastRunRnk := nr.stop.rank } } := by
      simp only [RIndex.createData, Option.some_inj] at hd0; exact hd0.symm
    subst hd1
    have hth := hth (by omega)
    have ht := ok.toehold_eq hth hn
    simp only [RIndex.toRange, g2, sa_zero ok.text ok.isSA] at ht
    change I.functors.locate [x] = _
    have hup : I.functors.update (I.functors.fullRange I.functors.bwtSize) nr 0 0 (I.functors.initial 0)
        = some { step := 0, run := { c := 0, lastRunRnk := nr.stop.rank } } := rfl
    have hlf : I.functors.lf (I.functors.fullRange I.functors.bwtSize) 0 = some nr := f1
    have hne : I.functors.isEmpty (I.functors.fullRange I.functors.bwtSize) = false := by
      rw [ok.backSearchAll.empty, ok.backSearchAll.full]; simp [hn]
    have hne2 : I.functors.isEmpty (I.functors.toRange nr) = false := by
      rw [ok.backSearchAll.empty, f2]; simp
    unfold Functors.locate
    simp only [List.reverse_singleton, List.length_singleton, Nat.sub_self, Functors.locateLoop, hne, hsym, hlf,
      Option.bind_eq_bind, Option.bind_some, List.length_nil, hup, hne2, Bool.false_eq_true, if_false]
    simp only [RIndex.functors, computeAllValues, Option.bind_eq_bind, ht, Option.bind_some, RIndex.toRange, g1, g2, RIndex.shrink,
      csub, Nat.le_refl, if_true, Nat.sub_self, RIndex.phiForRange]
    rw [hc.len]; rfl
  · unfold occurrences
    rw [List.filter_eq_nil_iff]
    intro p _ hp
    have hp := of_decide_eq_true hp
    rw [OccursAt, List.length_singleton] at hp
    apply hx
    have : x ∈ (T.drop p).take 1 := by rw [hp.2]; simp
    exact List.mem_of_mem_drop (List.mem_of_mem_take this)

example : (9 : Nat) ∉ exText := by decide
example : (RIndex.build exText exSA).bind (·.locate [9]) = some [11] := by decide

/-- **C14**, the part that holds: when the part of the pattern after an absent character is over the text's characters and the text does
    not start with it, the count is zero. (Missing: the case in which the text starts with that part, where the code reports one
    occurrence that does not exist, see `c14_rindex_absent_violation`.) -/
theorem c14_rindex_absent_partial (T sa : List Nat) (hT : IsText T) (hsa : IsSA T sa) (X Q : List Nat) (x : Nat) (hx : x ∉ T)
    (hQ : ∀ c ∈ Q, c ∈ T ∧ c ≠ 0) (hstart : ¬ OccursAt Q T 0) :
    ∃ I a, RIndex.build T sa = some I ∧ I.count (X ++ x :: Q) = some (a, a) := by
  obtain ⟨I, T', hb, ok, hc⟩ := RIndex.build_ok hT hsa
  have hsym : I.functors.getSymbol x = 0 := hc.absent x hx
  obtain ⟨a, ha⟩ := (count_absent ok.text ok.isSA ok.backSearchAll hsym Q
    (fun c h => ⟨hc.mem c (hQ c h).1, hc.pos c (hQ c h).1 (hQ c h).2⟩) X).2
    (by rw [show I.functors.getSymbol = I.alphabet.char2comp from rfl, hc.occ Q (fun c h => (hQ c h).1)]; exact hstart)
  exact ⟨I, a, hb, ha⟩

example : ¬ OccursAt [2] exText 0 ∧ ∀ c ∈ [2], c ∈ exText ∧ c ≠ 0 := by decide

/-- **C15** (RIndex, Count): the empty pattern covers every suffix-array position. -/
theorem c15_rindex_count_empty (T sa : List Nat) (hT : IsText T) (hsa : IsSA T sa) :
    ∃ I, RIndex.build T sa = some I ∧ I.count [] = some (0, T.length) := by
  obtain ⟨I, T', hb, ok, hc⟩ := RIndex.build_ok hT hsa
  refine ⟨I, hb, ?_⟩
  simp [RIndex.count, Functors.count, Functors.countLoop, RIndex.functors, ok.n, hc.len]

/-- **C15** violated (RIndex, Locate): Locate of the empty pattern asks for the run of rank 0, which does not exist: a fault,
    for every text. -/
theorem c15_rindex_locate_empty_violation (T sa : List Nat) (hT : IsText T) (hsa : IsSA T sa) :
    ∃ I, RIndex.build T sa = some I ∧ I.locate [] = none := by
  obtain ⟨I, T', hb, ok, hc⟩ := RIndex.build_ok hT hsa
  have hn := ok.text.pos
  refine ⟨I, hb, ?_⟩
  have hsel : I.bwtRle.selectOnRuns 0 0 = none := by
    unfold RLEString.selectOnRuns
    cases I.bwtRle.perSym[0]? with
    | none => rfl
    | some bv => simp [assertC]
  have h0 : ¬ T'.length = 0 := by omega
  simp [RIndex.locate, Functors.locate, Functors.locateLoop, RIndex.functors, ok.n, computeAllValues, RIndex.toehold,
    computeToehold, RIndex.saValueOfRun, hsel, h0]

/-- **C16**: the phi of the full r-index maps `SA[i]` to `SA[i-1]`. -/
theorem c16_rindex_phi (T sa : List Nat) (hT : IsText T) (hsa : IsSA T sa) :
    ∃ I, RIndex.build T sa = some I ∧ ∀ i (h : i < sa.length), 0 < i → I.phi sa[i] = some (sa[i-1], true) := by
  obtain ⟨I, T', hb, ok, hc⟩ := RIndex.build_ok hT hsa
  refine ⟨I, hb, fun i h h0 => ?_⟩
  have hl := hc.isSA.length
  have := ok.phi_eq h0 (by omega)
  simp only [saAt, List.getD_eq_getElem?_getD, List.getElem?_eq_getElem h,
    List.getElem?_eq_getElem (show i - 1 < sa.length by omega), Option.getD_some] at this
  exact this

example : (RIndex.build exText exSA).bind (·.phi 8) = some (6, true) := by decide

/-- at suffix-array position 0 phi has no answer: the code asserts that it is not asked for (phi.h:100) -/
theorem c16_rindex_phi_first (T sa : List Nat) (hT : IsText T) (hsa : IsSA T sa) :
    ∃ I, RIndex.build T sa = some I ∧ I.phi (sa.getD 0 0) = none := by
  obtain ⟨I, T', hb, ok, hc⟩ := RIndex.build_ok hT hsa
  have hn := ok.text.pos
  refine ⟨I, hb, ?_⟩
  have hz : sa.getD 0 0 = T'.length - 1 := sa_zero ok.text ok.isSA
  rw [hz]
  simp [RIndex.phi, phiBackward, ok.n, csub, show 1 ≤ T'.length by omega, assertC]

/-- **C18** (backward indexes, RIndex): whenever the search over a pattern ends in a non-empty range, the toehold computed from the
    recorded step is the suffix-array entry of the last position of the range. -/
theorem c18_rindex_toehold (T sa : List Nat) (hT : IsText T) (hsa : IsSA T sa) :
    ∃ I, RIndex.build T sa = some I ∧ ∀ P, IsPattern P T → ∀ r d,
      I.functors.locateLoop P.reverse { start := 0, stop := I.n } { step := 0, run := { c := 0, lastRunRnk := 0 } } = some (r, d) →
      r.start < r.stop → IsInterval P T sa r.start r.stop ∧ I.toehold d = sa[r.stop - 1]? := by
  obtain ⟨I, T', hb, ok, hc⟩ := RIndex.build_ok hT hsa
  refine ⟨I, hb, fun P hP r d hloop hlt => ?_⟩
  obtain ⟨c, L, hcl⟩ : ∃ c L, P.reverse = c :: L := by
    cases h : P.reverse with
    | nil => simp at h; exact absurd h hP.1
    | cons c L => exact ⟨c, L, rfl⟩
  have hsym : ∀ d ∈ c :: L, PatSym T' (I.functors.getSymbol d) := by
    intro d hd
    have hdP : d ∈ P := by rw [← List.mem_reverse, hcl]; exact hd
    exact ⟨hc.mem d (hP.2 d hdP).1, hc.pos d (hP.2 d hdP).1 (hP.2 d hdP).2⟩
  have hn := ok.text.pos
  have h0 : IsRange [] T' sa 0 I.n := by rw [ok.n]; exact isRange_nil ok.isSA
  obtain ⟨nr, e1, e2⟩ := ok.backSearch.lf ⟨0, I.n⟩ _ (hsym c (by simp)) (by rw [ok.n]; exact hn) h0.2.1
  obtain ⟨d1, f1, f2⟩ := ok.toeholdSpec.first (I.functors.getSymbol c) L.length 0 nr (hsym c (by simp)) e1
  have hstep := backward_step ok.text ok.isSA (hsym c (by simp)).2 h0
  obtain ⟨r', d', g1, g2, g3⟩ := locateLoop_spec ok.text ok.isSA ok.backSearch ok.toeholdSpec (fun c h => h.2) L
    (fun d hd => hsym d (by simp [hd])) [I.functors.getSymbol c] (by simp) (I.functors.toRange nr) d1
    (by rw [e2]; exact hstep) f2
  have hpat : (L.map I.functors.getSymbol).reverse ++ [I.functors.getSymbol c] = P.map I.alphabet.char2comp := by
    have := congrArg List.reverse hcl
    rw [List.reverse_reverse, List.reverse_cons] at this
    rw [this]; simp [List.map_reverse, RIndex.functors]
  rw [hpat] at g2 g3
  have hrun : I.functors.locateLoop P.reverse { start := 0, stop := I.n } { step := 0, run := { c := 0, lastRunRnk := 0 } }
      = some (r', d') := by
    have hne : I.functors.isEmpty ({ start := 0, stop := I.n } : Range) = false := by
      simp [RIndex.functors, ok.n, hn]
    rw [hcl, Functors.locateLoop, hne]
    simp only [Bool.false_eq_true, if_false, e1, Option.bind_eq_bind, Option.bind_some]
    have f1' : I.functors.update { start := 0, stop := I.n } nr (I.functors.getSymbol c) L.length
      { step := 0, run := { c := 0, lastRunRnk := 0 } } = some d1 := f1
    rw [f1']
    exact g1
  rw [hrun, Option.some_inj, Prod.mk.injEq] at hloop
  obtain ⟨rfl, rfl⟩ := hloop
  refine ⟨interval_of_range hc (fun c h => (hP.2 c h).1) g2, ?_⟩
  have hlen := pattern_len ok.text (Q := P.map I.alphabet.char2comp) (by
    intro x hx
    obtain ⟨y, hy, rfl⟩ := List.mem_map.1 hx
    exact hc.pos y (hP.2 y hy).1 (hP.2 y hy).2) g2 hlt
  have hth := g3 hlt
  have hst : d'.step < T'.length := by obtain ⟨q, -, -, -, h4, -⟩ := hth; omega
  rw [ok.toehold_eq hth hst]
  have hb2 : r'.stop ≤ T'.length := g2.2.1
  have hl : r'.stop - 1 < sa.length := by rw [ok.isSA.length]; omega
  rw [List.getElem?_eq_getElem hl]
  simp [saAt, List.getD_eq_getElem?_getD, List.getElem?_eq_getElem hl]

/-- **C37** (RIndex): Locate returns exactly `b - a` values for the range `[a,b)` Count finds; both terminate without fault. -/
theorem c37_rindex_length (T sa : List Nat) (hT : IsText T) (hsa : IsSA T sa) :
    ∃ I, RIndex.build T sa = some I ∧ ∀ P, IsPattern P T →
      ∃ a b l, I.count P = some (a, b) ∧ I.locate P = some l ∧ l.length = b - a := by
  obtain ⟨I, hb, h⟩ := rindex_exact hT hsa
  refine ⟨I, hb, fun P hP => ?_⟩
  obtain ⟨a, b, e1, e2, e3, e4⟩ := h P hP
  exact ⟨a, b, _, e1, e4, by rw [List.length_reverse, saSlice_length e2.2.1]⟩

/-- **C39** (RIndex): the positions are reported from the last suffix-array position of the range to the first. -/
theorem c39_rindex_order (T sa : List Nat) (hT : IsText T) (hsa : IsSA T sa) :
    ∃ I, RIndex.build T sa = some I ∧ ∀ P, IsPattern P T →
      ∃ a b, I.count P = some (a, b) ∧ I.locate P = some (saSlice sa a b).reverse := by
  obtain ⟨I, hb, h⟩ := rindex_exact hT hsa
  refine ⟨I, hb, fun P hP => ?_⟩
  obtain ⟨a, b, e1, e2, e3, e4⟩ := h P hP
  exact ⟨a, b, e1, e4⟩

example : (saSlice exSA 1 5).reverse = [0, 3, 8, 6] := by decide

end Sri
