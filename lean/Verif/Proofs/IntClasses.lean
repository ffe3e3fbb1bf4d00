import Verif.Model.IntClasses
import Verif.Proofs.IntAlphabet
import Verif.Proofs.SrCSABuild
import Verif.Proofs.SrIndex
/-! # Integer alphabets: every class -/
namespace Sri
set_option autoImplicit false

/-- the constructions from the base items on are those of the byte width -/
theorem buildIndex_ofBase (t : IndexType) (T sa : List Nat) (s : Nat) :
    buildIndex t T sa s = (constructBase T sa).bind (fun b => indexOfBase t b s) := by
  cases hb : constructBase T sa with
  | none =>
    cases t <;> simp [buildIndex, RIndex.build, SrIndex.build, SrIndexValid.build, RCSABwt.build, RCSAPsi.build, SrCSA.build, SrCSA.buildSlim,
      SrCSA.buildPsi, SrCSAValid.build, SrCSAValid.buildSlim, SrCSAValid.buildPsi, SrCSA.commons, SrCSA.commonsPsi, hb]
  | some b =>
    have hk : SrCSA.commons T sa s = SrCSA.commonsOf b s := by
      rw [SrCSA.commons, hb]; rfl
    have hkp : SrCSA.commonsPsi T sa s = SrCSA.commonsPsiOf b s := by
      rw [SrCSA.commonsPsi, hb]; rfl
    have hsr : SrIndex.build T sa s = SrIndex.ofBase b s := by
      rw [SrIndex.build, hb]; rfl
    have hS : SrCSA.build T sa s = (SrCSA.commonsOf b s).bind (fun k => SrCSA.ofCommons k s) := by
      rw [SrCSA.build, hk]; rfl
    have hL : SrCSA.buildSlim T sa s = (SrCSA.commonsOf b s).bind (fun k => SrCSA.slimOfCommons k s) := by
      rw [SrCSA.buildSlim, hk]; rfl
    rw [Option.bind_some]
    cases t
    · rw [buildIndex, RIndex.build, hb]; rfl
    · rw [buildIndex, hsr]; rfl
    · rw [buildIndex, SrIndexValid.build, hsr, hb]; rfl
    · rw [buildIndex, SrIndexValid.build, hsr, hb]; rfl
    · rw [buildIndex, RCSABwt.build, hb]; rfl
    · rw [buildIndex, RCSAPsi.build, hb]; rfl
    · rw [buildIndex, hS, indexOfBase]
      cases SrCSA.commonsOf b s with
      | none => rfl
      | some k => simp only [Option.bind_some, Option.bind_eq_bind]; cases SrCSA.ofCommons k s <;> rfl
    · rw [buildIndex, hL, indexOfBase]
      cases SrCSA.commonsOf b s with
      | none => rfl
      | some k => simp only [Option.bind_some, Option.bind_eq_bind]; cases SrCSA.slimOfCommons k s <;> rfl
    · rw [buildIndex, SrCSAValid.build, hS, hk, indexOfBase]
      cases hc : SrCSA.commonsOf b s with
      | none => rfl
      | some k =>
        simp only [Option.bind_some, Option.bind_eq_bind]
        cases SrCSA.ofCommons k s with
        | none => rfl
        | some I =>
          simp only [Option.bind_some]
          change Option.map _ (SrCSAValid.ofCommons k I) = _
          cases SrCSAValid.ofCommons k I <;> rfl
    · rw [buildIndex, SrCSAValid.build, hS, hk, indexOfBase]
      cases hc : SrCSA.commonsOf b s with
      | none => rfl
      | some k =>
        simp only [Option.bind_some, Option.bind_eq_bind]
        cases SrCSA.ofCommons k s with
        | none => rfl
        | some I =>
          simp only [Option.bind_some]
          change Option.map _ (SrCSAValid.ofCommons k I) = _
          cases SrCSAValid.ofCommons k I <;> rfl
    · rw [buildIndex, SrCSAValid.buildSlim, hL, hk, indexOfBase]
      cases hc : SrCSA.commonsOf b s with
      | none => rfl
      | some k =>
        simp only [Option.bind_some, Option.bind_eq_bind]
        cases SrCSA.slimOfCommons k s with
        | none => rfl
        | some I =>
          simp only [Option.bind_some]
          change Option.map _ (SrCSAValid.ofCommons k I) = _
          cases SrCSAValid.ofCommons k I <;> rfl
    · rw [buildIndex, SrCSAValid.buildSlim, hL, hk, indexOfBase]
      cases hc : SrCSA.commonsOf b s with
      | none => rfl
      | some k =>
        simp only [Option.bind_some, Option.bind_eq_bind]
        cases SrCSA.slimOfCommons k s with
        | none => rfl
        | some I =>
          simp only [Option.bind_some]
          change Option.map _ (SrCSAValid.ofCommons k I) = _
          cases SrCSAValid.ofCommons k I <;> rfl
    · rw [buildIndex, SrCSA.buildPsi, hkp, indexOfBase]
      cases SrCSA.commonsPsiOf b s <;> rfl
    · rw [buildIndex, SrCSAValid.buildPsi, hkp, indexOfBase]
      cases SrCSA.commonsPsiOf b s with
      | none => rfl
      | some k =>
        simp only [Option.bind_some, Option.bind_eq_bind]
        change Option.map _ (SrCSAValid.psiOfCommons k) = _
        cases SrCSAValid.psiOfCommons k <;> rfl
    · rw [buildIndex, SrCSAValid.buildPsi, hkp, indexOfBase]
      cases SrCSA.commonsPsiOf b s with
      | none => rfl
      | some k =>
        simp only [Option.bind_some, Option.bind_eq_bind]
        change Option.map _ (SrCSAValid.psiOfCommons k) = _
        cases SrCSAValid.psiOfCommons k <;> rfl

variable {T sa : List Nat}

/-- with at most 256 distinct integers the base items are those of the byte width, except the runs -/
theorem baseRef_ok (hT : IsText T) (hsa : IsSA T sa) (hd : T.dedup.length ≤ 256) :
    ∃ b T', constructBase T sa = some b ∧ BaseOK T sa T' b ∧ constructBaseRef T sa = some { b with runs :=
      { first := [0], firstTextPos := [pv T' sa 0], last := [T'.length - 1], lastTextPos := [pv T' sa (T'.length - 1)] } } := by
  obtain ⟨b, T', hb, ok⟩ := base_build hT hsa
  have hc := ok.compact
  have hn' : 0 < T'.length := hc.text.pos
  have hl := constructBWT_length hsa
  have hn := hT.pos
  have hruns := constructBWTRunsRef_eq (bwt := constructBWT T sa) (sa := sa) (by omega) (by rw [hsa.length, hl])
  refine ⟨b, T', hb, ok, ?_⟩
  unfold constructBase at hb
  simp only [Option.bind_eq_bind, Option.bind_eq_some_iff, Option.pure_def, Option.some_inj] at hb
  obtain ⟨runs, -, rle, hrle, rfl⟩ := hb
  have hbyte : RLEString.buildByte ((constructBWT T sa).map (Alphabet.build (constructBWT T sa)).char2comp) 2 = some rle := by
    rw [RLEString.buildByte_eq, hrle]
    intro c h
    obtain ⟨d, hd1, rfl⟩ := List.mem_map.1 h
    have := Alphabet.comp_lt_sigma _ hd1
    rw [sigma_dedup hT hsa] at this
    omega
  have hlen : (constructBWT T sa).length = T'.length := by rw [hl, hc.len]
  unfold constructBaseRef
  simp only [hruns, hbyte, Option.bind_eq_bind, Option.bind_some, Option.pure_def]
  rw [hlen, bwtTextPos_eq hc.isSA (by omega), bwtTextPos_eq hc.isSA (by omega)]

/-- the query is a backward search over the compacted text, with the symbols of the alphabet -/
def Searches (count : List Nat → Option (Nat × Nat)) (a : Alphabet) (T' sa : List Nat) : Prop :=
  ∃ (ρ ν δ : Type) (F : Functors ρ ν δ), count = F.count ∧ F.getSymbol = a.char2comp ∧ BackSearch F T' sa (· ∈ T')

/-- whatever the runs are, Count of every class searches -/
theorem searches_ofBase {b : BaseItems} {T' : List Nat} (ok : BaseOK T sa T' b) (hn : T.length < W64) (r : BWTRuns) (t : IndexType) (s : Nat)
    {Q : Queries} (hQ : indexOfBase t { b with runs := r } s = some Q) : Searches Q.count b.alphabet T' sa := by
  obtain ⟨p, hp, pk⟩ := psiItems_build ok hn
  obtain ⟨hC, hnav⟩ := PsiNav.ok_of_items ok pk
  have hc := ok.compact
  have hp' : constructPsiItems { b with runs := r } = some p := hp
  have hr : ∀ I : RIndex, I.alphabet = b.alphabet → I.bwtRle = b.bwtRle → I.n = T'.length → I.NavOK T' sa := fun I h1 h2 h3 =>
    ⟨hc.text, hc.isSA, h3, fun c h => by rw [h1]; exact hc.C c (Nat.le_of_lt (hc.lt c h)), by rw [h2]; exact ok.rle⟩
  have hS : ∀ {I : SrIndex}, SrIndex.ofBase { b with runs := r } s = some I → ∀ g, Searches (I.functorsWith g).count b.alphabet T' sa := by
    intro I hI g
    simp only [SrIndex.ofBase, hC, Option.bind_eq_bind, Option.bind_eq_some_iff, Option.bind_some, Option.pure_def, Option.some_inj] at hI
    obtain ⟨idx, -, sm, -, sx, -, sub, -, mk, -, rfl⟩ := hI
    exact ⟨_, _, _, _, rfl, rfl, (hr _ rfl rfl rfl).backSearchOf (SrIndex.navigates _ g)⟩
  have hSV : ∀ {I : SrIndexValid}, SrIndexValid.ofBase { b with runs := r } s = some I → ∀ g, Searches (I.sr.functorsWith g).count b.alphabet T' sa := by
    intro I hI g
    simp only [SrIndexValid.ofBase, Option.bind_eq_bind, Option.bind_eq_some_iff, Option.pure_def, Option.some_inj] at hI
    obtain ⟨sr, h1, _, -, _, -, _, -, _, -, _, -, _, -, rfl⟩ := hI
    exact hS h1 g
  have hcm : ∀ {k : SrCSA.Commons}, SrCSA.commonsOf { b with runs := r } s = some k →
      k.base.alphabet = b.alphabet ∧ k.psi = p := by
    intro k hk
    simp only [SrCSA.commonsOf, hp', Option.bind_eq_bind, Option.bind_eq_some_iff, Option.bind_some, Option.pure_def, Option.some_inj] at hk
    obtain ⟨_, -, _, -, _, -, _, -, rfl⟩ := hk
    exact ⟨rfl, rfl⟩
  have hN : ∀ (I : SrCSA), I.toPsiNav = { alphabet := b.alphabet, psi := p.core, n := T'.length } → ∀ O g,
      Searches (I.functorsWith O g).count b.alphabet T' sa := by
    intro I hI O g
    have h1 : I.toPsiNav.OK T' sa := by rw [hI]; exact hnav
    refine ⟨_, _, _, _, rfl, ?_, h1.backSearchOf (SrCSA.navigates I O g)⟩
    change I.alphabet.char2comp = _
    rw [hI]
  have hO : ∀ {k : SrCSA.Commons} {I : SrCSA}, SrCSA.commonsOf { b with runs := r } s = some k → SrCSA.ofCommons k s = some I →
      I.toPsiNav = { alphabet := b.alphabet, psi := p.core, n := T'.length } := by
    intro k I hk hI
    obtain ⟨h1, h2⟩ := hcm hk
    simp only [SrCSA.ofCommons, h1, h2, hC, Option.bind_eq_bind, Option.bind_eq_some_iff, Option.bind_some, Option.pure_def, Option.some_inj] at hI
    obtain ⟨_, -, _, -, _, -, rfl⟩ := hI
    rfl
  have hL : ∀ {k : SrCSA.Commons} {I : SrCSA}, SrCSA.commonsOf { b with runs := r } s = some k → SrCSA.slimOfCommons k s = some I →
      I.toPsiNav = { alphabet := b.alphabet, psi := p.core, n := T'.length } := by
    intro k I hk hI
    obtain ⟨h1, h2⟩ := hcm hk
    simp only [SrCSA.slimOfCommons, h1, h2, hC, Option.bind_eq_bind, Option.bind_eq_some_iff, Option.bind_some, Option.pure_def, Option.some_inj] at hI
    obtain ⟨_, -, ⟨_, _⟩, -, _, -, ⟨_, _, _⟩, -, _, -, _, -, rfl⟩ := hI
    rfl
  have hP : ∀ {k : SrCSA.PsiCommons}, SrCSA.commonsPsiOf { b with runs := r } s = some k →
      k.csa.toPsiNav = { alphabet := b.alphabet, psi := p.core, n := T'.length } := by
    intro k hk
    simp only [SrCSA.commonsPsiOf, hp', hC, Option.bind_eq_bind, Option.bind_eq_some_iff, Option.bind_some, Option.pure_def, Option.some_inj] at hk
    obtain ⟨_, -, _, -, _, -, _, -, _, -, _, -, _, -, _, -, _, -, rfl⟩ := hk
    rfl
  have hV : ∀ {k : SrCSA.Commons} {I : SrCSA} {V : SrCSAValid}, SrCSAValid.ofCommons k I = some V → V.csa = I := by
    intro k I V hV
    simp only [SrCSAValid.ofCommons, Option.bind_eq_bind, Option.bind_eq_some_iff, Option.pure_def, Option.some_inj] at hV
    obtain ⟨_, -, ⟨_, _⟩, -, rfl⟩ := hV
    rfl
  have hVP : ∀ {k : SrCSA.PsiCommons} {V : SrCSAValid}, SrCSAValid.psiOfCommons k = some V → V.csa = k.csa := by
    intro k V hV
    simp only [SrCSAValid.psiOfCommons, Option.bind_eq_bind, Option.bind_eq_some_iff, Option.pure_def, Option.some_inj] at hV
    obtain ⟨⟨_, _⟩, -, rfl⟩ := hV
    rfl
  have hR : ∀ {β : Type} (I : RCSA), I.toPsiNav = { alphabet := b.alphabet, psi := p.core, n := T'.length } → ∀ create (init : StepData β) getV,
      Searches (I.functorsWith create init getV).count b.alphabet T' sa := by
    intro β I hI create init getV
    have h1 : I.toPsiNav.OK T' sa := by rw [hI]; exact hnav
    refine ⟨_, _, _, _, rfl, ?_, h1.backSearchOf (RCSA.navigates I create init getV)⟩
    change I.alphabet.char2comp = _
    rw [hI]
  cases t <;> simp only [indexOfBase, Option.map_eq_some_iff, Option.bind_eq_bind, Option.bind_eq_some_iff, Option.pure_def, Option.some_inj] at hQ
  · obtain ⟨I, hI, rfl⟩ := hQ
    simp only [RIndex.ofBase, hC, Option.bind_eq_bind, Option.bind_eq_some_iff, Option.bind_some, Option.pure_def, Option.some_inj] at hI
    obtain ⟨mk, -, rfl⟩ := hI
    exact ⟨_, _, _, _, rfl, rfl, (hr _ rfl rfl rfl).backSearchOf (RIndex.navigates_functors _)⟩
  · obtain ⟨I, hI, rfl⟩ := hQ; exact hS hI _
  · obtain ⟨I, hI, rfl⟩ := hQ; exact hSV hI _
  · obtain ⟨I, hI, rfl⟩ := hQ; exact hSV hI _
  · obtain ⟨I, hI, rfl⟩ := hQ
    simp only [RCSABwt.ofBase, hp', hC, Option.bind_eq_bind, Option.bind_eq_some_iff, Option.bind_some, Option.pure_def, Option.some_inj] at hI
    obtain ⟨_, -, _, -, rfl⟩ := hI
    exact hR _ rfl _ _ _
  · obtain ⟨I, hI, rfl⟩ := hQ
    simp only [RCSAPsi.ofBase, hp', hC, Option.bind_eq_bind, Option.bind_eq_some_iff, Option.bind_some, Option.pure_def, Option.some_inj] at hI
    obtain ⟨_, -, _, -, _, -, _, -, rfl⟩ := hI
    exact hR _ rfl _ _ _
  · obtain ⟨k, hk, I, hI, rfl⟩ := hQ; exact hN I (hO hk hI) _ _
  · obtain ⟨k, hk, I, hI, rfl⟩ := hQ; exact hN I (hL hk hI) _ _
  · obtain ⟨k, hk, I, hI, V, h, rfl⟩ := hQ; exact hN V.csa (by rw [hV h]; exact hO hk hI) _ _
  · obtain ⟨k, hk, I, hI, V, h, rfl⟩ := hQ; exact hN V.csa (by rw [hV h]; exact hO hk hI) _ _
  · obtain ⟨k, hk, I, hI, V, h, rfl⟩ := hQ; exact hN V.csa (by rw [hV h]; exact hL hk hI) _ _
  · obtain ⟨k, hk, I, hI, V, h, rfl⟩ := hQ; exact hN V.csa (by rw [hV h]; exact hL hk hI) _ _
  · obtain ⟨k, hk, rfl⟩ := hQ; exact hN k.csa (hP hk) _ _
  · obtain ⟨k, hk, V, h, rfl⟩ := hQ; exact hN V.csa (by rw [hVP h]; exact hP hk) _ _
  · obtain ⟨k, hk, V, h, rfl⟩ := hQ; exact hN V.csa (by rw [hVP h]; exact hP hk) _ _

/-- Count of one symbol, whatever it is: it answers with a range that has a suffix that begins with the compacted symbol -/
theorem Searches.one {count : List Nat → Option (Nat × Nat)} {a : Alphabet} {T' : List Nat} (hc : Compact T sa a T') (h : Searches count a T' sa) (x : Nat) :
    ∃ y z i, count [x] = some (y, z) ∧ y ≤ i ∧ i < z ∧ i < T'.length ∧ tx T' (saAt sa i) = a.char2comp x := by
  obtain ⟨ρ, ν, δ, F, rfl, hg, hF⟩ := h
  have hn := hc.text.pos
  have hz : (0 : Nat) ∈ T' := by obtain ⟨u, hu, -⟩ := hc.text; rw [hu]; simp
  have hx : a.char2comp x ∈ T' := by
    by_cases hxT : x ∈ T
    · exact hc.mem x hxT
    · rw [hc.absent x hxT]; exact hz
  have hfull := hF.full
  obtain ⟨nr, e1, e2⟩ := hF.lf (F.fullRange F.bwtSize) _ hx (by rw [hfull]; exact hn) (by rw [hfull])
  rw [hfull] at e2
  have hemp : F.isEmpty (F.fullRange F.bwtSize) = false := by
    rw [hF.empty, hfull]; simpa using hn
  obtain ⟨j, hj, hjc⟩ := exists_bwtAt hc.isSA hx
  have h0 : cnt T' sa (a.char2comp x) 0 = 0 := by simp [cnt]
  have h1 := lf_eq hc.text hc.isSA hj
  rw [hjc] at h1
  have h2 := cnt_succ (T := T') (sa := sa) (a.char2comp x) j
  rw [if_pos hjc] at h2
  have h3 := cnt_mono (T := T') (sa := sa) (a.char2comp x) (show j + 1 ≤ T'.length by omega)
  refine ⟨(F.bounds (F.toRange nr)).1, (F.bounds (F.toRange nr)).2, lfAt T' sa j, ?_, ?_, ?_, lfAt_lt hc.isSA hj, ?_⟩
  · simp only [Functors.count, List.reverse_singleton, Functors.countLoop, hemp, hg, e1, Option.bind_eq_bind, Option.bind_some, Bool.false_eq_true,
      if_false]
    rfl
  · rw [e2]; dsimp only; omega
  · rw [e2]; dsimp only; omega
  · rw [← bwtAt_eq hc.isSA hj, hjc]

/-- the answer for a symbol of the text is right, that of the answer for another symbol is not -/
theorem Searches.other {count : List Nat → Option (Nat × Nat)} {a : Alphabet} {T' : List Nat} (hc : Compact T sa a T') (h : Searches count a T' sa)
    {c x : Nat} (hcT : c ∈ T) (h0 : c ≠ 0) (hx : x ≠ c) :
    ∃ y z, count [x] = some (y, z) ∧ ¬ IsInterval [c] T sa y z := by
  obtain ⟨y, z, i, e1, e2, e3, e4, e5⟩ := h.one hc x
  refine ⟨y, z, e1, fun hI => ?_⟩
  have hi : i < sa.length := by rw [hc.isSA.length]; exact e4
  have ho := (hI.2.2 i hi).2 ⟨e2, e3⟩
  have ho' := (hc.occ [c] (by simpa using hcT) sa[i]).2 ho
  obtain ⟨h1, h2⟩ := ho'
  simp only [List.map_cons, List.map_nil, List.length_singleton] at h1 h2
  have hs : saAt sa i = sa[i] := by simp [saAt, List.getD_eq_getElem?_getD, List.getElem?_eq_getElem hi]
  rw [hs, tx, List.getD_eq_getElem?_getD, List.getElem?_eq_getElem (by omega), Option.getD_some] at e5
  rw [List.drop_eq_getElem_cons (by omega), List.take_succ_cons, List.take_zero] at h2
  have h3 : T'[sa[i]] = a.char2comp c := by simpa using h2
  rw [h3] at e5
  by_cases hxT : x ∈ T
  · exact hx (hc.inj hxT hcT e5.symm)
  · rw [hc.absent x hxT] at e5
    exact hc.pos c hcT h0 e5

/-! ## Locate -/

/-- the runs that constructBWTRuns<0> reports -/
abbrev oneRun (T' sa : List Nat) : BWTRuns :=
  { first := [0], firstTextPos := [pv T' sa 0], last := [T'.length - 1], lastTextPos := [pv T' sa (T'.length - 1)] }

theorem sigma_C {b : BaseItems} {T' : List Nat} (ok : BaseOK T sa T' b) : b.alphabet.C[b.alphabet.sigma]? = some T'.length := by
  have hc := ok.compact
  rw [hc.C b.alphabet.sigma (Nat.le_refl _)]
  congr 1
  rw [cumC, List.countP_eq_length]
  intro c hcm; simpa using hc.lt c hcm

theorem bits_one {n p : Nat} (h : p < n) (init : Bool) : bitVectorFromInts [p] n init = some ((List.range n).map (fun i => if i ∈ [p] then !init else init)) := by
  rw [bitVectorFromInts, assertC, if_pos (by simpa using h)]
  rfl

/-- SrIndex over one run: one sample, always kept -/
theorem SrIndex.ofBase_one {b : BaseItems} {T' : List Nat} (ok : BaseOK T sa T' b) (s : Nat) :
    SrIndex.ofBase { b with runs := oneRun T' sa } s = some
      { base := { alphabet := b.alphabet, bwtRle := b.bwtRle, samples := [pv T' sa (T'.length - 1)],
                  marks := (List.range T'.length).map (fun i => if i ∈ [pv T' sa 0] then !false else false), markToSample := [0], n := T'.length },
        samplesIdx := [true], s := s } := by
  have hn := ok.compact.text.pos
  have h1 : SrIndex.subsampleIdx s [pv T' sa (T'.length - 1)] (sortIndices [pv T' sa (T'.length - 1)]) (linksPhiBackward [pv T' sa 0]).2 = some [0] := rfl
  have h2 : bitVectorFromInts [pv T' sa 0] T'.length false = _ := bits_one (Nat.mod_lt _ hn) false
  simp only [SrIndex.ofBase, sigma_C ok, h1, Option.bind_eq_bind, Option.bind_some]
  have h3 : bitVectorFromInts [0] [T'.length - 1].length false = some [true] := rfl
  have h4 : SrIndex.submarks [pv T' sa 0] [0] = some [pv T' sa 0] := by simp [SrIndex.submarks, cmod]
  simp only [h3, h4, Option.bind_some, ok.n, h2, List.mapM_cons, List.mapM_nil, List.getElem?_cons_zero]
  rfl

/-- the backward classes: a one-symbol query that is answered reports a position of another symbol -/
theorem back_one {b : BaseItems} {T' : List Nat} (ok : BaseOK T sa T' b) {t : IndexType} (s : Nat)
    (ht : t ∈ [IndexType.rIndex, .srIndex, .srIndexValidMark, .srIndexValidArea]) {Q : Queries}
    (hQ : indexOfBase t { b with runs := oneRun T' sa } s = some Q) {x : Nat} (hx : b.alphabet.char2comp x ∈ T') (h0 : b.alphabet.char2comp x ≠ 0)
    {l : List Nat} (hl : Q.locate [x] = some l) : ∃ p ∈ l, tx T' p ≠ b.alphabet.char2comp x := by
  have hc := ok.compact
  have hn := hc.text.pos
  have hr : ∀ I : RIndex, I.alphabet = b.alphabet → I.bwtRle = b.bwtRle → I.n = T'.length → I.NavOK T' sa := fun I h1 h2 h3 =>
    ⟨hc.text, hc.isSA, h3, fun c h => by rw [h1]; exact hc.C c (Nat.le_of_lt (hc.lt c h)), by rw [h2]; exact ok.rle⟩
  have hone : ∀ {I : SrIndex}, SrIndex.ofBase { b with runs := oneRun T' sa } s = some I → ∀ g,
      (I.functorsWith g).locate [x] = some l → ∃ p ∈ l, tx T' p ≠ b.alphabet.char2comp x := by
    intro I hI g hl
    rw [SrIndex.ofBase_one ok, Option.some_inj] at hI
    subst hI
    refine RIndex.locate_one_sample (hr _ rfl rfl rfl) SrIndex.creates (SrIndex.navigates _ g) rfl rfl (fun _ => rfl) (g := g)
      (getV := SrIndex.saValueOfRun _) rfl ?_ hx h0 hl
    rintro d q v ⟨d1, d2, -⟩ hv
    simp only [SrIndex.saValueOfRun, d1, Option.bind_eq_bind, Option.bind_some, saValueBackward, Option.bind_eq_some_iff] at hv
    obtain ⟨⟨w, j⟩, hw, hv⟩ := hv
    simp only [findSample, SrIndex.getSampleData, SrIndex.getSample, d2, if_true, Option.bind_eq_bind, Option.bind_eq_some_iff] at hw
    obtain ⟨o, ⟨bb, hb1, hb2⟩, hw⟩ := hw
    have hq0 : q = 0 := by
      obtain ⟨hq, -⟩ := List.getElem?_eq_some_iff.1 hb1
      simpa using hq
    subst hq0
    simp only [List.getElem?_cons_zero, Option.some_inj] at hb1
    subst hb1
    simp [bvRank] at hb2
    subst hb2
    simp only [Option.pure_def, Option.some_inj, Prod.mk.injEq] at hw
    obtain ⟨rfl, rfl⟩ := hw
    refine ⟨rfl, ?_⟩
    simp only [cmod, show T'.length ≠ 0 by omega, if_false, Option.some_inj] at hv
    rw [← hv, Nat.add_zero, Nat.add_mod_right, Nat.mod_mod]
  have hV : ∀ {I : SrIndexValid}, SrIndexValid.ofBase { b with runs := oneRun T' sa } s = some I →
      SrIndex.ofBase { b with runs := oneRun T' sa } s = some I.sr := by
    intro I hI
    simp only [SrIndexValid.ofBase, Option.bind_eq_bind, Option.bind_eq_some_iff, Option.pure_def, Option.some_inj] at hI
    obtain ⟨sr, h1, _, -, _, -, _, -, _, -, _, -, _, -, rfl⟩ := hI
    exact h1
  simp only [List.mem_cons, List.not_mem_nil, or_false] at ht
  rcases ht with rfl | rfl | rfl | rfl <;> simp only [indexOfBase, Option.map_eq_some_iff] at hQ <;> obtain ⟨I, hI, rfl⟩ := hQ
  · simp only [RIndex.ofBase, sigma_C ok, Option.bind_eq_bind, Option.bind_eq_some_iff, Option.bind_some, Option.pure_def, Option.some_inj] at hI
    obtain ⟨mk, -, rfl⟩ := hI
    refine RIndex.locate_one_sample (hr _ rfl rfl rfl) RIndex.creates (RIndex.navigates_functors _) rfl rfl (fun _ => rfl) rfl ?_ hx h0 hl
    intro d q v hd hv
    have hd : b.bwtRle.selectOnRuns d.lastRunRnk d.c = some q := hd
    simp only [RIndex.saValueOfRun, hd, Option.bind_eq_bind, Option.bind_some, Option.bind_eq_some_iff, Option.pure_def, Option.some_inj] at hv
    obtain ⟨w, hw, rfl⟩ := hv
    have hq0 : q = 0 := by
      obtain ⟨hq, -⟩ := List.getElem?_eq_some_iff.1 hw
      simpa using hq
    subst hq0
    simp only [List.getElem?_cons_zero, Option.some_inj] at hw
    subst hw
    exact ⟨rfl, rfl⟩
  · exact hone hI _ hl
  · exact hone (hV hI) _ hl
  · exact hone (hV hI) _ hl

/-- the forward classes over psi: if the value of every run of the symbol is missing, a one-symbol query does not answer -/
theorem PsiNav.OK.locate_fault {N : PsiNav} {T' : List Nat} (h : N.OK T' sa) {β : Type} {den : β → Nat → Prop}
    {create : Range → Nat → RangeRunLF → Nat → Option (StepData β)} (hcr : PsiNav.Creates T' sa den create)
    {F : Functors Range RangeRunLF (StepData β)} (hF : PsiNav.Navigates F N)
    (hup : F.update = updateToehold PsiNav.lfTrivial create) (hinit : ∀ k, (F.initial k).step = 0)
    {g : Range → Nat → Option (List Nat)} {getV : β → Option Nat} {m : Nat} {sh : Range → Option Range}
    (hall : F.computeAll = computeAllValues g (computeToehold getV m) sh)
    {x c : Nat} (hg : F.getSymbol x = c) (hx : c ∈ T') (h0 : c ≠ 0)
    (hone : ∀ d q, q < nrun T' sa → sy T' sa q = c → den d q → getV d = none) : F.locate [x] = none := by
  have hn := h.text.pos
  have B := h.backSearchOf hF
  have hth := h.toeholdAllOf hcr hF hup hinit
  have hfull := B.full
  obtain ⟨nr, e1, e2⟩ := B.lf (F.fullRange F.bwtSize) c hx (by rw [hfull]; exact hn) (by rw [hfull])
  obtain ⟨d, e3, e4⟩ := hth.first c 0 0 nr hx e1
  rw [hfull] at e2
  have hemp : F.isEmpty (F.fullRange F.bwtSize) = false := by
    rw [B.empty, hfull]; simpa using hn
  have hlt : (F.bounds (F.toRange nr)).1 < (F.bounds (F.toRange nr)).2 := by
    rw [e2]
    obtain ⟨j, hj, hjc⟩ := exists_bwtAt h.isSA hx
    have h1 := cnt_succ (T := T') (sa := sa) c j
    rw [if_pos hjc] at h1
    have h2 := cnt_mono (T := T') (sa := sa) c (show j + 1 ≤ T'.length by omega)
    have h3 : cnt T' sa c 0 = 0 := by simp [cnt]
    dsimp only
    omega
  have hemp2 : F.isEmpty (F.toRange nr) = false := by
    rw [B.empty]; simpa using hlt
  have hloc : F.locate [x] = F.computeAll (F.toRange nr) d := by
    simp only [Functors.locate, List.reverse_singleton, Functors.locateLoop, hemp, List.length_nil, List.length_singleton, Nat.sub_self,
      hg, e1, e3, Option.bind_eq_bind, Option.bind_some, hemp2, Bool.false_eq_true, if_false]
  obtain ⟨q, t1, t2, t3, t4, t5⟩ := e4 hlt
  have hstep : d.step = 0 := by simp at t4; exact t4
  have hbd : F.bounds (F.toRange nr) = ((F.toRange nr).start, (F.toRange nr).stop) := by rw [hF.bounds]
  have hst : (F.toRange nr).start = (F.bounds (F.toRange nr)).1 := by rw [hbd]
  rw [hstep, hst, e2] at t5
  have t5 : lfAt T' sa (hd T' sa q) = cumC T' c + cnt T' sa c 0 := t5
  have hr := backward_step h.text h.isSA h0 (isRange_nil h.isSA)
  have hm := (hr.2.2 (cumC T' c + cnt T' sa c 0)).2 ⟨Nat.le_refl _, by rw [e2] at hlt; exact hlt⟩
  have hsy : sy T' sa q = c := by
    rw [← bwt_hd t2, bwtAt_eq h.isSA (hd_lt t2), t5]
    exact (occursAt_cons.1 hm.2).2.1
  rw [hloc, hall]
  simp only [computeAllValues, computeToehold, hone _ q t2 hsy t1, Option.bind_eq_bind, Option.bind_none]

theorem PsiNav.OK.zero_run {N : PsiNav} {T' : List Nat} (h : N.OK T' sa) {c : Nat} (hc : c ≠ 0) :
    1 ≤ ((List.range c).map (fun d => (symRuns (rle (bwtSeq T' sa)) d).length)).sum := by
  have hz : (0 : Nat) ∈ T' := by obtain ⟨u, hu, -⟩ := h.text; rw [hu]; simp
  obtain ⟨j, hj, hjc⟩ := exists_bwtAt h.isSA hz
  have h1 : 0 < (symRuns (rle (bwtSeq T' sa)) 0).length := symRuns_ne (by
    rw [bwtSeq, List.mem_map]; exact ⟨j, List.mem_range.2 hj, hjc⟩)
  obtain ⟨k, rfl⟩ := Nat.exists_eq_succ_of_ne_zero hc
  rw [List.range_succ_eq_map, List.map_cons, List.sum_cons]
  omega

theorem psiRuns_one {b : BaseItems} {p v : Nat} {l : List Nat} (h : constructPsiRuns b [p] [v] = some l) : l = [v] := by
  simp only [constructPsiRuns, List.zip_cons_cons, List.zip_nil_right, bucketLoop, Option.bind_eq_bind, Option.bind_eq_some_iff,
    Option.pure_def, Option.some_inj] at h
  obtain ⟨_, ⟨c, -, y, hy, rfl⟩, rfl⟩ := h
  obtain ⟨hc, hy⟩ := List.getElem?_eq_some_iff.1 hy
  rw [List.getElem_replicate] at hy
  subst hy
  rw [List.length_replicate] at hc
  rw [List.set_eq_take_append_cons_drop, if_pos (by simpa using hc)]
  simp

/-- RCSAWithPsiRun: no symbol but the terminator is located -/
theorem rcsaPsi_one {b : BaseItems} {T' : List Nat} (ok : BaseOK T sa T' b) (hn : T.length < W64) (s : Nat) {Q : Queries}
    (hQ : indexOfBase .rcsaWithPsiRun { b with runs := oneRun T' sa } s = some Q) {x : Nat} (hx : b.alphabet.char2comp x ∈ T')
    (h0 : b.alphabet.char2comp x ≠ 0) : Q.locate [x] = none := by
  obtain ⟨p, hp, pk⟩ := psiItems_build ok hn
  obtain ⟨hC, hnav⟩ := PsiNav.ok_of_items ok pk
  have hp' : constructPsiItems { b with runs := oneRun T' sa } = some p := hp
  simp only [indexOfBase, Option.map_eq_some_iff] at hQ
  obtain ⟨I, hI, rfl⟩ := hQ
  simp only [RCSAPsi.ofBase, hp', hC, Option.bind_eq_bind, Option.bind_eq_some_iff, Option.bind_some, Option.pure_def, Option.some_inj] at hI
  obtain ⟨heads, h1, _, -, _, -, _, -, rfl⟩ := hI
  have h1 := psiRuns_one h1
  subst h1
  refine PsiNav.OK.locate_fault (N := ⟨b.alphabet, p.core, T'.length⟩) hnav (den := RCSAPsi.den T' sa) (create := RCSAPsi.createData)
    (fun _ c nr _ => ⟨{ c := c, partialRank := nr.start.rank }, rfl, fun q _ _ _ h1 h2 _ => ⟨h1.symm, h2⟩⟩)
    (RCSA.navigates _ _ _ _) rfl (fun _ => rfl) rfl (c := b.alphabet.char2comp x) rfl hx h0 ?_
  rintro d q hq hs ⟨d1, -⟩
  have hlt := hnav.lt _ hx
  unfold RCSAPsi.saValueOfRun
  rw [d1, hs, hnav.core.rankCharRun (Nat.le_of_lt hlt)]
  have := hnav.zero_run h0
  simp only [Option.bind_eq_bind, Option.bind_some]
  rw [List.getElem?_eq_none (by simp only [List.length_singleton]; omega)]
  rfl

/-- RCSAWithBWTRun: no symbol but the last one of the text is located -/
theorem rcsaBwt_one {b : BaseItems} {T' : List Nat} (ok : BaseOK T sa T' b) (hn : T.length < W64) (s : Nat) {Q : Queries}
    (hQ : indexOfBase .rcsaWithBWTRun { b with runs := oneRun T' sa } s = some Q) {x : Nat} (hx : b.alphabet.char2comp x ∈ T')
    (h0 : b.alphabet.char2comp x ≠ 0) (hlast : b.alphabet.char2comp x ≠ bwtAt T' sa 0) : Q.locate [x] = none := by
  obtain ⟨p, hp, pk⟩ := psiItems_build ok hn
  obtain ⟨hC, hnav⟩ := PsiNav.ok_of_items ok pk
  have hp' : constructPsiItems { b with runs := oneRun T' sa } = some p := hp
  simp only [indexOfBase, Option.map_eq_some_iff] at hQ
  obtain ⟨I, hI, rfl⟩ := hQ
  simp only [RCSABwt.ofBase, hp', hC, Option.bind_eq_bind, Option.bind_eq_some_iff, Option.bind_some, Option.pure_def, Option.some_inj] at hI
  obtain ⟨_, -, _, -, rfl⟩ := hI
  refine PsiNav.OK.locate_fault (N := ⟨b.alphabet, p.core, T'.length⟩) hnav (den := RCSABwt.den T' sa) (create := RCSABwt.createData)
    (fun _ _ nr _ => ⟨nr.start.rstart, rfl, fun q _ h1 _ _ _ _ => h1⟩)
    (RCSA.navigates _ _ _ _) rfl (fun _ => rfl) rfl (c := b.alphabet.char2comp x) rfl hx h0 ?_
  rintro d q hq hs rfl
  unfold RCSABwt.saValueOfRun
  rw [hnav.core.rankRun hnav.dense (by rw [bwtSeq_length]; exact Nat.le_of_lt (hd_lt hq)), RCSABwt.runsBefore_hd hq]
  have hq0 : q ≠ 0 := by
    rintro rfl
    exact hlast (by rw [← hs, ← bwt_hd hq, hd, rstart_zero])
  simp only [Option.bind_eq_bind, Option.bind_some]
  rw [List.getElem?_eq_none (by simp only [List.length_singleton]; omega)]
  rfl

theorem symRuns_map (f : Nat → Nat) (T' : List Nat) (c : Nat) : (symRuns (rle (bwtSeq T' sa)) c).map (fun q => f q.1) =
    ((List.range (nrun T' sa)).filter (fun q => decide (sy T' sa q = c))).map (fun q => f (hd T' sa q)) := by
  rw [symRuns, List.map_map]
  have h1 : (List.range (rle (bwtSeq T' sa)).length).filter (fun k => ((rle (bwtSeq T' sa)).getD k (0,0)).1 == c) =
      (List.range (nrun T' sa)).filter (fun q => decide (sy T' sa q = c)) := by
    refine List.filter_congr ?_
    intro q hq
    have hq' : q < nrun T' sa := List.mem_range.1 hq
    have hq2 : q < (rle (bwtSeq T' sa)).length := hq'
    have : sy T' sa q = ((rle (bwtSeq T' sa)).getD q (0,0)).1 := by
      rw [sy_eq hq', List.getD_eq_getElem?_getD, List.getElem?_eq_getElem hq2]; rfl
    rw [this]; rfl
  rw [h1]
  rfl

theorem sortedByAlphabet_any {P : PsiCoreRLE} {s h : Nat} {T' : List Nat} (hp : PsiOK P (bwtSeq T' sa) s h) (first : List Nat) (m : Nat) :
    ∀ c count, c + m = s → ∃ cum, SrCSA.sortedByAlphabet P first (List.range' c m) count =
      some (((List.range' c m).flatMap (fun c => (List.range (nrun T' sa)).filter (fun q => decide (sy T' sa q = c)))).map
        (fun q => lowerBound first (hd T' sa q)), cum) := by
  induction m with
  | zero => intro c count _; exact ⟨[], rfl⟩
  | succ m ih =>
    intro c count hc
    obtain ⟨cum, e⟩ := ih (c + 1) (count + (symRuns (rle (bwtSeq T' sa)) c).length) (by omega)
    refine ⟨(count + (symRuns (rle (bwtSeq T' sa)) c).length) :: cum, ?_⟩
    rw [List.range'_succ, SrCSA.sortedByAlphabet, hp.traverse (by omega)]
    simp only [Option.bind_eq_bind, Option.bind_some, e, symRuns_map (lowerBound first), List.flatMap_cons, List.map_append]
    rfl

theorem of_assertC {c : Bool} {u : Unit} (h : assertC c = some u) : c = true := by
  cases c with
  | true => rfl
  | false => exact absurd h (by simp [assertC])

/-- an index that is kept is reported at its place in the order of the alphabet -/
theorem slimLoop_mem (bv : List Bool) (subs : List Nat) : ∀ (l : List Nat) (i cnt : Nat) (ts l1 l2 t : List Nat),
    SrCSA.slimLoop bv subs i cnt ts l = some (l1, l2, t) → ∀ k q, l[k]? = some q → bv[q]? = some true → i + k ∈ l2
  | [], _, _, _, _, _, _, _, k, q, hk, _ => by simp at hk
  | x :: rest, i, cnt, ts, l1, l2, t, h, k, q, hk, hq => by
    simp only [SrCSA.slimLoop, Option.bind_eq_bind, Option.bind_eq_some_iff] at h
    obtain ⟨b, hb, h⟩ := h
    split at h
    · simp only [Option.bind_eq_some_iff, Option.pure_def, Option.some_inj] at h
      obtain ⟨rnk, -, v, -, _, -, ⟨m1, m2, mt⟩, hm, h⟩ := h
      simp only [Prod.mk.injEq] at h
      obtain ⟨-, rfl, -⟩ := h
      cases k with
      | zero => simp
      | succ k =>
        have := slimLoop_mem bv subs rest _ _ _ _ _ _ hm k q (by simpa using hk) hq
        rw [show i + (k + 1) = i + 1 + k by omega]
        exact List.mem_cons_of_mem _ this
    · rename_i hbf
      cases k with
      | zero =>
        rw [List.getElem?_cons_zero, Option.some_inj] at hk
        subst hk
        rw [hb, Option.some_inj] at hq
        exact absurd hq hbf
      | succ k =>
        have := slimLoop_mem bv subs rest _ _ _ _ _ _ h k q (by simpa using hk) hq
        rw [show i + (k + 1) = i + 1 + k by omega]
        exact this

/-- SrCSASlim and its validity variants: the construction writes outside a bit vector of one bit -/
theorem slim_one {b : BaseItems} {T' : List Nat} (ok : BaseOK T sa T' b) (hn : T.length < W64) (h2 : 2 ≤ T.length) {t : IndexType} (s : Nat)
    (ht : t ∈ [IndexType.srCSASlim, .srCSASlimValidMark, .srCSASlimValidArea]) :
    indexOfBase t { b with runs := oneRun T' sa } s = none := by
  obtain ⟨p, hp, pk⟩ := psiItems_build ok hn
  obtain ⟨hC, hnav⟩ := PsiNav.ok_of_items ok pk
  have hc := ok.compact
  have hp' : constructPsiItems { b with runs := oneRun T' sa } = some p := hp
  have key : ∀ k I, SrCSA.commonsOf { b with runs := oneRun T' sa } s = some k → SrCSA.slimOfCommons k s ≠ some I := by
    intro k I hk hI
    simp only [SrCSA.commonsOf, hp', Option.bind_eq_bind, Option.bind_eq_some_iff, Option.bind_some, Option.pure_def, Option.some_inj] at hk
    obtain ⟨links, -, idx, hidx, sm, -, sub, -, rfl⟩ := hk
    have hidx0 : idx = [0] := by
      simp only [SrIndex.subsampleIdx, Option.bind_eq_bind, Option.bind_eq_some_iff] at hidx
      obtain ⟨_, -, _, -, _, -, h⟩ := hidx
      have h' : some [0] = some idx := h
      simpa using h'.symm
    subst hidx0
    obtain ⟨cum, hs⟩ := sortedByAlphabet_any pk.core [0] b.alphabet.sigma 0 0 (by omega)
    rw [← List.range_eq_range'] at hs
    simp only [SrCSA.slimOfCommons, pk.core.len, hs, Option.bind_eq_bind, Option.bind_eq_some_iff, Option.bind_some, Option.pure_def,
      Option.some_inj] at hI
    obtain ⟨_, -, ibv, hibv, ⟨l1, l2, ts⟩, hl, _, -, bv, hbv, -⟩ := hI
    have hr0 : 0 < nrun T' sa := nrun_pos hc.text.pos
    have hs0 : sy T' sa 0 < b.alphabet.sigma := RCSAPsi.sy_lt hc 0 hr0
    have hne : sy T' sa 0 ≠ 0 := by
      rw [← bwt_hd hr0, hd, rstart_zero]
      intro h0
      have := (bwtAt_zero_iff hc.text hc.isSA hc.text.pos).1 h0
      rw [sa_zero hc.text hc.isSA] at this
      rw [← hc.len] at h2
      omega
    have hget := psiOrd_get hr0 hs0
    have h1 := hnav.zero_run hne
    have hin := slimLoop_mem _ _ _ _ _ _ _ _ _ hl _ 0 (by
      rw [List.getElem?_map]
      change Option.map _ ((psiOrd T' sa b.alphabet.sigma)[_]?) = _
      rw [hget, Option.map_some, hd, rstart_zero]
      rfl) (by
      simp only [bitVectorFromInts, Option.bind_eq_bind, Option.bind_eq_some_iff, Option.pure_def, Option.some_inj] at hibv
      obtain ⟨_, ha, rfl⟩ := hibv
      have ha := of_assertC ha
      simp only [List.all_cons, List.all_nil, Bool.and_true, decide_eq_true_eq] at ha
      rw [List.getElem?_map, List.getElem?_range ha]
      rfl)
    simp only [bitVectorFromInts, Option.bind_eq_bind, Option.bind_eq_some_iff, Option.pure_def] at hbv
    obtain ⟨_, ha, -⟩ := hbv
    have ha := of_assertC ha
    rw [List.all_eq_true] at ha
    have := ha _ hin
    simp at this
    omega
  have key' : ∀ k, SrCSA.commonsOf { b with runs := oneRun T' sa } s = some k → SrCSA.slimOfCommons k s = none := fun k hk =>
    Option.eq_none_iff_forall_ne_some.2 (fun I => key k I hk)
  simp only [List.mem_cons, List.not_mem_nil, or_false] at ht
  cases hk : SrCSA.commonsOf { b with runs := oneRun T' sa } s with
  | none => rcases ht with rfl | rfl | rfl <;> simp [indexOfBase, hk]
  | some k => rcases ht with rfl | rfl | rfl <;> simp [indexOfBase, hk, key' k hk]

theorem Searches.exact {count : List Nat → Option (Nat × Nat)} {a : Alphabet} {T' : List Nat} (hc : Compact T sa a T') (h : Searches count a T' sa)
    {P : List Nat} (hP : ∀ c ∈ P, c ∈ T ∧ c ≠ 0) : ∃ y z, count P = some (y, z) ∧ IsInterval P T sa y z := by
  obtain ⟨ρ, ν, δ, F, rfl, hg, hF⟩ := h
  exact count_exact_of hc hg (hF.mono (fun c h => h.1)) hP

end Sri
