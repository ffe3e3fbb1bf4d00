import Verif.Proofs.CacheValues
import Verif.Props.Text
/-! # The steps write what they should -/
namespace Sri
set_option autoImplicit false

section
variable {T sa : List Nat} (v : BaseVals T sa) (w : ∀ s, RateVals v s)

/-- the files without a hash in their name -/
def idealPlain (s : Nat) : FileName → Option Item
  | .text => some (.ints T)
  | .sa => some (.ints sa)
  | .bwt => some (.ints (constructBWT T sa))
  | .alphabet => some (.alphabet v.b.alphabet)
  | .bwtRle => some (.bwtRle v.b.bwtRle)
  | .first => some (.ints v.b.runs.first)
  | .firstTextPos => some (.ints v.b.runs.firstTextPos)
  | .last => some (.ints v.b.runs.last)
  | .lastTextPos => some (.ints v.b.runs.lastTextPos)
  | .firstSorted => some (.ints (sortIndices v.b.runs.firstTextPos))
  | .firstToLast => some (.ints (linksPhiBackward v.b.runs.firstTextPos).2)
  | .lastSorted => some (.ints (sortIndices v.b.runs.lastTextPos))
  | .lastToFirst => some (.ints v.fl.2)
  | .psi => some (.ints v.p.psi)
  | .alphaIdx => some (.ints v.sc.1)
  | .cumRuns => some (.ints v.sc.2)
  | .psiFirstAsc => some (.ints (sortIndices v.heads))
  | .subLastIdx => some (.ints (w s).idxB)
  | .subLast => some (.ints (w s).samplesB)
  | .subFirstByLast => some (.ints (w s).subB)
  | .subFirstToLast => some (.ints (sortIndices (w s).subB))
  | .validFirstMark => some (.ints ((w s).valB.map (·.1)))
  | .validFirstArea => some (.ints (w s).areasB)
  | .subFirstIdx => some (.ints (w s).idxF)
  | .subFirst => some (.ints (w s).samplesF)
  | .subLastByFirst => some (.ints (w s).subF)
  | .subLastToFirst => some (.ints (sortIndices (w s).subF))
  | .subFirstPos => some (.ints (w s).posF)
  | .alphaSubFirst => some (.ints (w s).slim.1)
  | .alphaSubIdx => some (.ints (w s).slim.2.1)
  | .alphaSubLinks => some (.ints (w s).slimLinks)
  | .validLastMark => some (.ints ((w s).valF.map (·.1)))
  | .validLastArea => some (.ints ((w s).valF.map (·.2)))
  | .subPsiIdx => some (.ints (w s).idxP)
  | _ => none

/-- the integers with a hash in their name -/
def idealInts (s : Nat) : FileName → Option (List Nat)
  | .psiFirst => some v.heads
  | .psiLast => some v.tails
  | .psiLink => some v.pl.2
  | .psiCum => some v.cum
  | .subPsiIdx => some (w s).idxP
  | .subPsiFirst => some (w s).samplesP
  | .subPsiLast => some (w s).subP
  | .subPsiLink => some (sortIndices (w s).subP)
  | .validPsiMark => some ((w s).valP.map (·.1))
  | .validPsiArea => some ((w s).valP.map (·.2))
  | _ => none

/-- the bit vectors -/
def idealBits (s : Nat) : FileName → Option (List Bool)
  | .firstTextPos => some v.markB
  | .lastTextPos => some v.markF
  | .psiLast => some v.markP
  | .subLastIdx => some (w s).idxBitsB
  | .subFirstByLast => some (w s).markB
  | .validFirstMark => some (w s).validB
  | .subLastByFirst => some (w s).markF
  | .subFirstPos => some (w s).posBitsF
  | .validLastMark => some (w s).validF
  | .alphaSubIdx => some (w s).slimIdx
  | .subPsiLast => some (w s).markP
  | .subPsiIdx => some (w s).idxBitsP
  | .validPsiMark => some (w s).validP
  | _ => none

/-- what every file should hold -/
def ideal (s : Nat) (r : FileRef) : Option Item :=
  match r.2 with
  | none => idealPlain v w s r.1
  | some .ints => (idealInts v w s r.1).map .ints
  | some .psi => if r.1 = .psi then some (.psi v.p.core) else none
  | some .sdVector => (idealBits v w s r.1).map .sdVector
  | some .sdRank => (idealBits v w s r.1).map (fun _ => .sdRank none)
  | some .sdSelect => (idealBits v w s r.1).map (fun _ => .sdSelect none)
  | some .bitVector => (idealBits v w s r.1).map .bitVector
  | some .bitRank1 => (idealBits v w s r.1).map (fun b => .bitRank1 b none)
  | some .bitSelect1 => (idealBits v w s r.1).map (fun b => .bitSelect1 b none)
  | some .bitRank0 => (idealBits v w s r.1).map (fun b => .bitRank0 b none)
  | _ => none

theorem ideal_rateFree : RateFree (ideal v w) := by
  intro s s' r hr
  obtain ⟨n, ty⟩ := r
  have h1 : idealPlain v w s n = idealPlain v w s' n := by cases n <;> first | rfl | cases hr
  have h2 : idealInts v w s n = idealInts v w s' n := by cases n <;> first | rfl | cases hr
  have h3 : idealBits v w s n = idealBits v w s' n := by cases n <;> first | rfl | cases hr
  unfold ideal
  dsimp only
  rw [h1, h2, h3]

/-- the bytes are those of the text, and the suffix array is its own -/
structure Input (bytes T sa : List Nat) : Prop where
  text : constructText bytes = .stored T
  sa : sa = suffixArray T

variable {v w} {bytes : List Nat} {s : Nat}

theorem fl_fst : v.fl.1 = sortIndices v.b.runs.lastTextPos := by
  have h := v.hfl
  unfold linksPhiForwardBWT constructMarkToSampleLinks at h
  simp only [Option.bind_eq_bind, Option.bind_eq_some_iff, Option.pure_def, Option.some.injEq] at h
  obtain ⟨n, -, l, -, e⟩ := h
  rw [← e]

theorem base_eqs : v.b.n = (constructBWT T sa).length ∧ constructBWTRuns (constructBWT T sa) sa = some v.b.runs ∧
    v.b.alphabet = Alphabet.build (constructBWT T sa) ∧
    RLEString.build ((constructBWT T sa).map (Alphabet.build (constructBWT T sa)).char2comp) 2 = some v.b.bwtRle := by
  have h := v.hb
  unfold constructBase at h
  simp only [Option.bind_eq_bind, Option.bind_eq_some_iff, Option.pure_def, Option.some.injEq] at h
  obtain ⟨runs, h1, rle, h2, e⟩ := h
  rw [← e]
  exact ⟨rfl, h1, rfl, h2⟩

theorem ok_text (h : Input bytes T sa) : StepOK (ideal v w) bytes s Steps.text := by
  refine ⟨_, _, rfl, ?_, rfl⟩
  simp only [Steps.text, List.reverse_cons, List.reverse_nil, List.nil_append, h.text]

theorem ok_sa (h : Input bytes T sa) : StepOK (ideal v w) bytes s Steps.sa := by
  refine ⟨_, _, rfl, ?_, rfl⟩
  rw [h.sa]; rfl

theorem ok_bwt : StepOK (ideal v w) bytes s Steps.bwt := ⟨_, _, rfl, rfl, rfl⟩

theorem ok_bwtRuns : StepOK (ideal v w) bytes s Steps.bwtRuns := by
  refine ⟨_, _, rfl, ?_, rfl⟩
  simp only [Steps.bwtRuns, List.reverse_cons, List.reverse_nil, List.nil_append, List.cons_append, (base_eqs (v := v)).2.1]; rfl

theorem ok_alphabet : StepOK (ideal v w) bytes s Steps.alphabet := by
  refine ⟨_, _, rfl, ?_, rfl⟩
  rw [(base_eqs (v := v)).2.2.1]; rfl

theorem ok_bwtRle : StepOK (ideal v w) bytes s Steps.bwtRle := by
  refine ⟨_, _, rfl, ?_, rfl⟩
  simp only [Steps.bwtRle, List.reverse_cons, List.reverse_nil, List.nil_append, List.cons_append, (base_eqs (v := v)).2.2.1, (base_eqs (v := v)).2.2.2]; rfl

theorem ok_linksBackward : StepOK (ideal v w) bytes s Steps.linksBackward := ⟨_, _, rfl, rfl, rfl⟩

/-- a bit vector whose integers and size are right -/
theorem ok_bitVector {out : FileName} {b : BvKind} {src len : FileRef} {l x : List Nat} {bv : List Bool} (h1 : ideal v w s len = some (.ints l))
    (h2 : ideal v w s src = some (.ints x)) (h3 : bitVectorFromInts x l.length false = some bv) (h4 : idealBits v w s out = some bv) :
    StepOK (ideal v w) bytes s (Steps.bitVector out b src len) := by
  refine ⟨[.ints l, .ints x], (match b with
        | .sd => [.sdVector bv, .sdRank none, .sdSelect none]
        | .plain => [.bitVector bv, .bitRank1 bv none, .bitSelect1 bv none]), ?_, ?_, ?_⟩
  · simp only [Steps.bitVector, List.mapM_cons, List.mapM_nil, CacheRead.ref, h1, h2]; rfl
  · cases b <;> simp only [Steps.bitVector, h3] <;> rfl
  · cases b <;> simp only [Steps.bitVector, List.flatten_cons, List.flatten_nil, List.cons_append, List.nil_append, List.mapM_cons, List.mapM_nil,
      ideal, BvKind.ty, BvKind.rankTy, BvKind.selectTy, h4] <;> rfl

theorem ok_validBits {out : FileName} {src len : FileRef} {l x : List Nat} {bv : List Bool} (h1 : ideal v w s len = some (.ints l))
    (h2 : ideal v w s src = some (.ints x)) (h3 : bitVectorFromInts x l.length true = some bv) (h4 : idealBits v w s out = some bv) :
    StepOK (ideal v w) bytes s (Steps.validBits out src len) := by
  refine ⟨[.ints l, .ints x], [.bitVector bv, .bitRank0 bv none], ?_, ?_, ?_⟩
  · simp only [Steps.validBits, List.mapM_cons, List.mapM_nil, CacheRead.ref, h1, h2]; rfl
  · simp only [Steps.validBits, h3]; rfl
  · simp only [Steps.validBits, List.flatten_cons, List.flatten_nil, List.cons_append, List.nil_append, List.mapM_cons, List.mapM_nil,
      ideal, h4]; rfl

theorem ok_sorted {out : FileName} {src : FileRef} {x : List Nat} (h1 : ideal v w s src = some (.ints x))
    (h2 : ideal v w s (out, none) = some (.ints (sortIndices x))) : StepOK (ideal v w) bytes s (Steps.sorted out src) := by
  refine ⟨[.ints x], [.ints (sortIndices x)], ?_, rfl, ?_⟩
  · simp only [Steps.sorted, List.mapM_cons, List.mapM_nil, CacheRead.ref, h1]; rfl
  · simp only [Steps.sorted, List.flatten_cons, List.flatten_nil, List.append_nil, List.mapM_cons, List.mapM_nil, h2]; rfl

theorem ok_samplesBackward : StepOK (ideal v w) bytes s Steps.samplesBackward := by
  refine ⟨_, _, rfl, ?_, rfl⟩
  simp only [Steps.samplesBackward, List.reverse_cons, List.reverse_nil, List.nil_append, List.cons_append, (w s).hidxB, (w s).hsamplesB, Option.bind_eq_bind, Option.bind_some, Option.pure_def]

theorem ok_marksBackward : StepOK (ideal v w) bytes s Steps.marksBackward := by
  refine ⟨_, _, rfl, ?_, rfl⟩
  have := (w s).hsubB
  unfold SrIndex.submarks at this
  simp only [Steps.marksBackward, List.reverse_cons, List.reverse_nil, List.nil_append, List.cons_append, v.hlen]
  rw [this]; rfl

theorem ok_validityBackward : StepOK (ideal v w) bytes s Steps.validityBackward := by
  refine ⟨_, _, rfl, ?_, rfl⟩
  have h := (w s).hmsB
  unfold linksPhiBackward at h
  simp only [Steps.validityBackward, List.reverse_cons, List.reverse_nil, List.nil_append, List.cons_append, h, (w s).hvalB, (w s).hareasB, Option.bind_eq_bind, Option.bind_some, Option.pure_def]

theorem ok_psi : StepOK (ideal v w) bytes s Steps.psi := by
  refine ⟨_, _, rfl, ?_, rfl⟩
  have h : constructPsiItems { n := v.b.n, alphabet := v.b.alphabet, bwtRle := v.b.bwtRle, runs := ⟨[], [], [], []⟩ } = some v.p := v.hp
  simp only [Steps.psi, List.reverse_cons, List.reverse_nil, List.nil_append, List.cons_append, v.hn, h, Option.bind_eq_bind, Option.bind_some, Option.pure_def]

theorem ok_linksForward : StepOK (ideal v w) bytes s Steps.linksForward := by
  refine ⟨_, _, rfl, ?_, rfl⟩
  have h : linksPhiForwardBWT { n := 0, alphabet := v.b.alphabet, bwtRle := v.b.bwtRle, runs := ⟨v.b.runs.first, [], v.b.runs.last,
    v.b.runs.lastTextPos⟩ } { psi := [], core := v.p.core } = some v.fl := v.hfl
  simp only [Steps.linksForward, List.reverse_cons, List.reverse_nil, List.nil_append, List.cons_append, h, Option.map_some, fl_fst]

theorem ok_samplesForward : StepOK (ideal v w) bytes s Steps.samplesForward := by
  refine ⟨_, _, rfl, ?_, rfl⟩
  simp only [Steps.samplesForward, List.reverse_cons, List.reverse_nil, List.nil_append, List.cons_append, (w s).hidxF, (w s).hsamplesF, Option.bind_eq_bind, Option.bind_some, Option.pure_def]

theorem ok_marksForward : StepOK (ideal v w) bytes s Steps.marksForward := by
  refine ⟨_, _, rfl, ?_, rfl⟩
  have h : SrCSA.submarksBWT { n := 0, alphabet := v.b.alphabet, bwtRle := v.b.bwtRle, runs := ⟨v.b.runs.first, [], v.b.runs.last,
    v.b.runs.lastTextPos⟩ } { psi := [], core := v.p.core } (w s).idxF = some (w s).subF := (w s).hsubF
  simp only [Steps.marksForward, List.reverse_cons, List.reverse_nil, List.nil_append, List.cons_append, h, Option.bind_eq_bind, Option.bind_some, Option.pure_def]

theorem ok_samplesPosition : StepOK (ideal v w) bytes s Steps.samplesPosition := by
  refine ⟨_, _, rfl, ?_, rfl⟩
  simp only [Steps.samplesPosition, List.reverse_cons, List.reverse_nil, List.nil_append, List.cons_append, (w s).hposF, Option.map_some]

theorem ok_sortedByAlphabet : StepOK (ideal v w) bytes s Steps.sortedByAlphabet := by
  refine ⟨_, _, rfl, ?_, rfl⟩
  simp only [Steps.sortedByAlphabet, List.reverse_cons, List.reverse_nil, List.nil_append, List.cons_append, v.hsc, Option.map_some]

theorem ok_samplesByAlphabet : StepOK (ideal v w) bytes s Steps.samplesByAlphabet := by
  refine ⟨_, _, rfl, ?_, rfl⟩
  simp only [Steps.samplesByAlphabet, List.reverse_cons, List.reverse_nil, List.nil_append, List.cons_append, (w s).hslimBits, (w s).hslim, (w s).hslimLinks, Option.bind_eq_bind, Option.bind_some, Option.pure_def]

theorem ok_validityForward : StepOK (ideal v w) bytes s Steps.validityForward := by
  refine ⟨_, _, rfl, ?_, rfl⟩
  have h := (w s).hmsF
  rw [fl_fst] at h
  simp only [Steps.validityForward, List.reverse_cons, List.reverse_nil, List.nil_append, List.cons_append, h, (w s).hvalF, Option.bind_eq_bind, Option.bind_some, Option.pure_def]

theorem ok_psiRuns : StepOK (ideal v w) bytes s Steps.psiRuns := by
  refine ⟨_, _, rfl, ?_, rfl⟩
  have h1 : constructPsiRuns { n := 0, alphabet := v.b.alphabet, bwtRle := v.b.bwtRle, runs := ⟨[], [], [], []⟩ } v.b.runs.first
    v.b.runs.firstTextPos = some v.heads := v.hheads
  have h2 : constructPsiRuns { n := 0, alphabet := v.b.alphabet, bwtRle := v.b.bwtRle, runs := ⟨[], [], [], []⟩ } v.b.runs.last
    v.b.runs.lastTextPos = some v.tails := v.htails
  simp only [Steps.psiRuns, List.reverse_cons, List.reverse_nil, List.nil_append, List.cons_append, h1, h2, Option.bind_eq_bind, Option.bind_some, Option.pure_def]

theorem ok_psiLinks : StepOK (ideal v w) bytes s Steps.psiLinks := by
  refine ⟨_, _, rfl, ?_, rfl⟩
  simp only [Steps.psiLinks, List.reverse_cons, List.reverse_nil, List.nil_append, v.hpl, Option.map_some]

theorem ok_samplesPsi : StepOK (ideal v w) bytes s Steps.samplesPsi := by
  refine ⟨_, _, rfl, ?_, rfl⟩
  simp only [Steps.samplesPsi, List.reverse_cons, List.reverse_nil, List.nil_append, List.cons_append, (w s).hidxP, (w s).hsamplesP, Option.bind_eq_bind, Option.bind_some, Option.pure_def]

theorem ok_marksPsi : StepOK (ideal v w) bytes s Steps.marksPsi := by
  refine ⟨_, _, rfl, ?_, rfl⟩
  simp only [Steps.marksPsi, List.reverse_cons, List.reverse_nil, List.nil_append, List.cons_append, (w s).hsubP, Option.map_some]

theorem ok_markLinksPsi : StepOK (ideal v w) bytes s Steps.markLinksPsi := ⟨_, _, rfl, rfl, rfl⟩

theorem ok_cumulativePsi : StepOK (ideal v w) bytes s Steps.cumulativePsi := by
  refine ⟨_, _, rfl, ?_, rfl⟩
  simp only [Steps.cumulativePsi, List.reverse_cons, List.reverse_nil, List.nil_append, List.cons_append, v.hcum, Option.map_some]

theorem ok_validityPsi : StepOK (ideal v w) bytes s Steps.validityPsi := by
  refine ⟨_, _, rfl, ?_, rfl⟩
  simp only [Steps.validityPsi, List.reverse_cons, List.reverse_nil, List.nil_append, List.cons_append, (w s).hvalP, Option.bind_eq_bind, Option.bind_some, Option.pure_def]

theorem ok_areasPsi : StepOK (ideal v w) bytes s Steps.areasPsi := ⟨_, _, rfl, rfl, rfl⟩

theorem len_subB : (w s).subB.length = (w s).samplesB.length := by
  rw [mapM_length (w s).hsubB, mapM_length (w s).hsamplesB]

theorem len_subF : (w s).subF.length = (w s).samplesF.length := by
  have h := (w s).hsubF
  unfold SrCSA.submarksBWT at h
  simp only [Option.bind_eq_bind, Option.bind_eq_some_iff] at h
  obtain ⟨n, -, l, h1, h2⟩ := h
  rw [mapM_length h2, mapM_length h1, mapM_length (w s).hsamplesF]

/-- every step of every construction -/
theorem ok_program (h : Input bytes T sa) (t : IndexType) (b : BvKind) : ∀ st ∈ program t b, StepOK (ideal v w) bytes s st := by
  have hn := (base_eqs (v := v)).1
  have h1 := (w s).hvalidB
  rw [len_subB] at h1
  have h2 := (w s).hvalidF
  rw [len_subF] at h2
  have b1 : StepOK (ideal v w) bytes s (Steps.bitVector .firstTextPos .sd (.firstTextPos, none) (.bwt, none)) :=
    ok_bitVector rfl rfl (by rw [← hn]; exact v.hmarkB) rfl
  have b2 : StepOK (ideal v w) bytes s (Steps.bitVector .subLastIdx b (.subLastIdx, none) (.last, none)) :=
    ok_bitVector rfl rfl (w s).hidxBitsB rfl
  have b3 : StepOK (ideal v w) bytes s (Steps.bitVector .subFirstByLast .sd (.subFirstByLast, none) (.bwt, none)) :=
    ok_bitVector rfl rfl (by rw [← hn]; exact (w s).hmarkB) rfl
  have b4 : StepOK (ideal v w) bytes s (Steps.bitVector .lastTextPos .sd (.lastTextPos, none) (.bwt, none)) :=
    ok_bitVector rfl rfl (by rw [← hn]; exact v.hmarkF) rfl
  have b5 : StepOK (ideal v w) bytes s (Steps.bitVector .subLastByFirst .sd (.subLastByFirst, none) (.bwt, none)) :=
    ok_bitVector rfl rfl (by rw [← hn]; exact (w s).hmarkF) rfl
  have b6 : StepOK (ideal v w) bytes s (Steps.bitVector .subFirstPos b (.subFirstPos, none) (.bwt, none)) :=
    ok_bitVector rfl rfl (by rw [← hn]; exact (w s).hposBitsF) rfl
  have b7 : StepOK (ideal v w) bytes s (Steps.bitVector .alphaSubIdx b (.alphaSubIdx, none) (.first, none)) :=
    ok_bitVector rfl rfl (w s).hslimIdx rfl
  have b8 : StepOK (ideal v w) bytes s (Steps.bitVector .psiLast .sd (.psiLast, some .ints) (.bwt, none)) :=
    ok_bitVector rfl rfl (by rw [← hn]; exact v.hmarkP) rfl
  have b9 : StepOK (ideal v w) bytes s (Steps.bitVector .subPsiLast .sd (.subPsiLast, some .ints) (.bwt, none)) :=
    ok_bitVector rfl rfl (by rw [← hn]; exact (w s).hmarkP) rfl
  have b10 : StepOK (ideal v w) bytes s (Steps.bitVector .subPsiIdx b (.subPsiIdx, some .ints) (.psiFirst, some .ints)) :=
    ok_bitVector rfl rfl (w s).hidxBitsP rfl
  have c1 : StepOK (ideal v w) bytes s (Steps.validBits .validFirstMark (.validFirstMark, none) (.subLast, none)) :=
    ok_validBits rfl rfl h1 rfl
  have c2 : StepOK (ideal v w) bytes s (Steps.validBits .validLastMark (.validLastMark, none) (.subFirst, none)) :=
    ok_validBits rfl rfl h2 rfl
  have c3 : StepOK (ideal v w) bytes s (Steps.validBits .validPsiMark (.validPsiMark, some .ints) (.subPsiLast, some .ints)) :=
    ok_validBits rfl rfl (w s).hvalidP rfl
  have d1 : StepOK (ideal v w) bytes s (Steps.sorted .lastSorted (.lastTextPos, none)) := ok_sorted rfl rfl
  have d2 : StepOK (ideal v w) bytes s (Steps.sorted .firstSorted (.firstTextPos, none)) := ok_sorted rfl rfl
  have d3 : StepOK (ideal v w) bytes s (Steps.sorted .psiFirstAsc (.psiFirst, some .ints)) := ok_sorted rfl rfl
  have base : ∀ st ∈ Steps.base, StepOK (ideal v w) bytes s st := by
    intro st hst
    simp only [Steps.base, List.mem_cons, List.not_mem_nil, or_false] at hst
    rcases hst with rfl | rfl | rfl | rfl | rfl | rfl
    exacts [ok_text h, ok_sa h, ok_bwt, ok_bwtRuns, ok_alphabet, ok_bwtRle]
  have rI : ∀ st ∈ Steps.rIndex, StepOK (ideal v w) bytes s st := by
    intro st hst
    simp only [Steps.rIndex, List.mem_append, List.mem_cons, List.not_mem_nil, or_false] at hst
    rcases hst with hst | rfl | rfl
    exacts [base st hst, ok_linksBackward, b1]
  have srI : ∀ st ∈ Steps.srIndex b, StepOK (ideal v w) bytes s st := by
    intro st hst
    simp only [Steps.srIndex, List.mem_append, List.mem_cons, List.not_mem_nil, or_false] at hst
    rcases hst with hst | rfl | rfl | rfl | rfl | rfl
    exacts [rI st hst, d1, ok_samplesBackward, b2, ok_marksBackward, b3]
  have srIV : ∀ st ∈ Steps.srIndexValid b, StepOK (ideal v w) bytes s st := by
    intro st hst
    simp only [Steps.srIndexValid, List.mem_append, List.mem_cons, List.not_mem_nil, or_false] at hst
    rcases hst with hst | rfl | rfl
    exacts [srI st hst, ok_validityBackward, c1]
  have rC : ∀ st ∈ Steps.rcsaWithBWTRun, StepOK (ideal v w) bytes s st := by
    intro st hst
    simp only [Steps.rcsaWithBWTRun, List.mem_append, List.mem_cons, List.not_mem_nil, or_false] at hst
    rcases hst with hst | rfl | rfl | rfl
    exacts [base st hst, ok_psi, ok_linksForward, b4]
  have com : ∀ st ∈ Steps.srCSACommons, StepOK (ideal v w) bytes s st := by
    intro st hst
    simp only [Steps.srCSACommons, List.mem_append, List.mem_cons, List.not_mem_nil, or_false] at hst
    rcases hst with hst | rfl | rfl | rfl | rfl
    exacts [rC st hst, d2, ok_samplesForward, ok_marksForward, b5]
  have sC : ∀ st ∈ Steps.srCSA b, StepOK (ideal v w) bytes s st := by
    intro st hst
    simp only [Steps.srCSA, List.mem_append, List.mem_cons, List.not_mem_nil, or_false] at hst
    rcases hst with hst | rfl | rfl
    exacts [com st hst, ok_samplesPosition, b6]
  have sS : ∀ st ∈ Steps.srCSASlim b, StepOK (ideal v w) bytes s st := by
    intro st hst
    simp only [Steps.srCSASlim, List.mem_append, List.mem_cons, List.not_mem_nil, or_false] at hst
    rcases hst with hst | rfl | rfl | rfl
    exacts [com st hst, ok_sortedByAlphabet, ok_samplesByAlphabet, b7]
  have val : ∀ st ∈ Steps.srCSAValid, StepOK (ideal v w) bytes s st := by
    intro st hst
    simp only [Steps.srCSAValid, List.mem_cons, List.not_mem_nil, or_false] at hst
    rcases hst with rfl | rfl
    exacts [ok_validityForward, c2]
  have rP : ∀ st ∈ Steps.rcsaWithPsiRun, StepOK (ideal v w) bytes s st := by
    intro st hst
    simp only [Steps.rcsaWithPsiRun, List.mem_append, List.mem_cons, List.not_mem_nil, or_false] at hst
    rcases hst with hst | rfl | rfl | rfl | rfl
    exacts [base st hst, ok_psi, ok_psiRuns, b8, ok_psiLinks]
  have sP : ∀ st ∈ Steps.srCSAWithPsiRun b, StepOK (ideal v w) bytes s st := by
    intro st hst
    simp only [Steps.srCSAWithPsiRun, List.mem_append, List.mem_cons, List.not_mem_nil, or_false] at hst
    rcases hst with ((hst | rfl) | rfl | rfl) | rfl | rfl | rfl | rfl
    exacts [rP st hst, d3, ok_samplesPsi, ok_marksPsi, b9, ok_markLinksPsi, b10, ok_cumulativePsi]
  have vP : ∀ st ∈ Steps.psiValidMark, StepOK (ideal v w) bytes s st := by
    intro st hst
    simp only [Steps.psiValidMark, List.mem_cons, List.not_mem_nil, or_false] at hst
    rcases hst with rfl | rfl
    exacts [ok_validityPsi, c3]
  intro st hst
  cases t <;> simp only [program, List.mem_append, List.mem_cons, List.not_mem_nil, or_false] at hst
  · exact rI st hst
  · exact srI st hst
  · exact srIV st hst
  · exact srIV st hst
  · exact rC st hst
  · exact rP st hst
  · exact sC st hst
  · exact sS st hst
  · exact hst.elim (sC st) (val st)
  · exact hst.elim (sC st) (val st)
  · exact hst.elim (sS st) (val st)
  · exact hst.elim (sS st) (val st)
  · exact sP st hst
  · exact hst.elim (sP st) (vP st)
  · rcases hst with (hst | hst) | rfl
    exacts [sP st hst, vP st hst, ok_areasPsi]

end
end Sri
