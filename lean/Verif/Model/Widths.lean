import Verif.Model.EncVectorCtor
import Verif.Model.AllIndexes
/-! # The constructions with the widths of the vectors they store

Everywhere else a vector of integers is a list of numbers. In the code it is an sdsl::int_vector<> whose cells have a number of bits chosen
when it is made, and an assignment keeps only that many low bits. Here the constructions are repeated with those vectors: every width is
the expression in the code, every value stored is cut to it, and every later step reads the cut values. Widths are not bounded by 64
(sizes are below 2^64). sdsl's own vectors (the suffix array, the BWT, `C`) keep their values by contract. -/
namespace Sri
set_option autoImplicit false

/-- sdsl::int_vector<> and int_vector_buffer<> with a run-time width -/
structure IntVec where
  width : Nat
  vals : List Nat
deriving Repr, DecidableEq

/-- sdsl::bits::hi: position of the highest bit, 0 for 0 -/
def hiBit (x : Nat) : Nat := Nat.log2 x

/-- values written one by one to the cells of a vector of width `w` -/
def IntVec.store (w : Nat) (vals : List Nat) : IntVec := { width := w, vals := vals.map (· % 2 ^ w) }

/-- sdsl::util::bit_compress: the width is reduced to what the greatest value needs -/
def IntVec.bitCompress (v : IntVec) : IntVec := IntVec.store (hiBit (v.vals.foldl max 0) + 1) v.vals

/-- `sdsl::int_vector<> idx(n, 0, hi(n) + 1)`, iota and sort by value (construct.h:140-153, sr_index.h:667-679, sr_csa.h:949-960,
    sr_csa_psi.h:666-681) -/
def sortIndicesW (vals : List Nat) : IntVec :=
  let v := IntVec.store (hiBit vals.length + 1) (List.range vals.length)
  { v with vals := sortBy (fun i => vals.getD i 0) v.vals }

/-- the four files of constructBWTRuns (construct_sdsl.h:43-123), all with n_width = hi(n) + 1 (line 65) -/
structure BWTRunsW where
  first : IntVec
  firstTextPos : IntVec
  last : IntVec
  lastTextPos : IntVec

def constructBWTRunsW (bwt sa : List Nat) : Option BWTRunsW := do
  let r ← constructBWTRuns bwt sa
  let w := hiBit bwt.length + 1
  return { first := .store w r.first, firstTextPos := .store w r.firstTextPos, last := .store w r.last,
           lastTextPos := .store w r.lastTextPos }

/-- the files as the later steps read them -/
def BWTRunsW.read (r : BWTRunsW) : BWTRuns :=
  { first := r.first.vals, firstTextPos := r.firstTextPos.vals, last := r.last.vals, lastTextPos := r.lastTextPos.vals }

/-- constructIndexBaseItems (construct_sdsl.h:126-161) -/
structure BaseItemsW where
  items : BaseItems
  runs : BWTRunsW

def constructBaseW (T sa : List Nat) : Option BaseItemsW := do
  let bwt := constructBWT T sa
  let runs ← constructBWTRunsW bwt sa
  let a := Alphabet.build bwt
  let rle ← RLEString.build (bwt.map a.char2comp) 2
  return { items := { n := bwt.length, alphabet := a, bwtRle := rle, runs := runs.read }, runs := runs }

/-- constructMarkToSampleLinks (construct.h:155-166): both vectors have width hi(r) + 1 -/
def constructMarkToSampleLinksW (marks : List Nat) (getLink : Nat → Option Nat) : Option (IntVec × IntVec) := do
  let idx := sortIndicesW marks
  let links ← idx.vals.mapM getLink
  return (idx, .store (hiBit marks.length + 1) links)

/-- constructMarkToSampleLinksForPhiBackward (construct.h:242-256) -/
def linksPhiBackwardW (marks : List Nat) : Option (IntVec × IntVec) :=
  constructMarkToSampleLinksW marks (fun k => some ((k + marks.length - 1) % marks.length))

/-- the assignments of constructPsi (psi.h:32-34), to cells of `w` bits -/
def psiLoopW (w : Nat) : List Nat → Nat → List Nat → List Nat → Option (List Nat)
  | [], _, _, psi => some psi
  | c :: bwt, i, saPos, psi => do
    let p ← saPos[c]?
    assertC (decide (p < psi.length))
    psiLoopW w bwt (i + 1) (saPos.set c (p + 1)) (psi.set p (i % 2 ^ w))

/-- constructPsi (psi.h:24-37): psi has width hi(n) + 1 -/
def constructPsiW (bwt C : List Nat) : Option IntVec := do
  let sigma ← csub C.length 1
  let n ← C[sigma]?
  assertC (decide (n = bwt.length))
  let psi ← psiLoopW (hiBit n + 1) bwt 0 C (List.replicate n 0)
  return { width := hiBit n + 1, vals := psi }

/-- the width of psi_c_sample_rank: that of its last value (psi.h:101-103), or 64 (width 0) if there is none -/
def ranksWidth (l : List Nat) : Nat :=
  match l.getLast? with
  | none => 64
  | some b => hiBit b + 1

/-- the partial psi of one symbol (psi.h:79-105): the encoded vector pass by pass, the ranks of the samples with the width of the last
    one -/
def buildPartW (dens : Nat) (vals : List Nat) : Option (EncVector × List Nat) := do
  let r := match vals with
    | [] => ([], [])
    | v :: vs => PsiCoreRLE.runLoop dens [] [] 1 v (v + 1) vs
  let E ← EncVector.ofContainer dens r.1
  return (E, (IntVec.store (ranksWidth r.2) r.2).vals)

/-- the constructor of PsiCoreRLE (psi.h:65-107) -/
def psiCoreLoopW (dens : Nat) (C psi : List Nat) : List Nat → Nat → List (EncVector × List Nat) →
    Option (Nat × List (EncVector × List Nat))
  | [], first, parts => some (first, parts)
  | i :: is, first, parts => do
    let sp ← C[i]?
    let ep ← C[i + 1]?
    let v ← psi[sp]?
    assertC (decide (ep ≤ psi.length))
    let first := if v = 0 then i else first
    let part ← buildPartW dens ((psi.drop sp).take (ep - sp))
    psiCoreLoopW dens C psi is first (parts ++ [part])

def psiCoreW (dens : Nat) (C psi : List Nat) : Option PsiCoreRLE := do
  let sigma ← csub C.length 1
  let n ← C[sigma]?
  let (first, parts) ← psiCoreLoopW dens C psi (List.range sigma) 0 []
  return { n := n, first := first, parts := parts }

/-- constructPsi(config) (construct.h:69-92) with bit_compress -/
def constructPsiItemsW (b : BaseItems) : Option PsiItems := do
  let syms ← (List.range b.n).mapM b.bwtRle.access
  let psi ← constructPsiW syms b.alphabet.C
  let psi := psi.bitCompress
  let core ← psiCoreW 64 b.alphabet.C psi.vals
  return { psi := psi.vals, core := core }

/-- constructMarkToSampleLinksForPhiForwardWithBWTRuns (construct.h:168-221) -/
def linksPhiForwardBWTW (b : BaseItems) (p : PsiItems) : Option (IntVec × IntVec) := do
  let n ← b.alphabet.C[b.alphabet.sigma]?
  constructMarkToSampleLinksW b.runs.lastTextPos (fun m => do
    let pos ← b.runs.last[m]?
    markToSampleLink (basicLF b.bwtRle b.alphabet.C) (psiApply p.core.select b.alphabet.C) (lowerBound b.runs.first) n pos)

/-- constructPsiRuns for one part (construct.h:108-136): written with the width of the text positions of the BWT runs (line 126) -/
def constructPsiRunsW (b : BaseItems) (pos textPos : IntVec) : Option IntVec := do
  let l ← constructPsiRuns b pos.vals textPos.vals
  return .store textPos.width l

/-- constructMarkToSampleLinksForPhiForwardWithPsiRuns (construct.h:223-239) -/
def linksPhiForwardPsiW (marks : List Nat) : Option (IntVec × IntVec) :=
  constructMarkToSampleLinksW marks (fun m => cmod (m + 1) marks.length)

/-- the kept sample indices (sr_index.h:576-611, sr_csa.h:879-907, sampling.h:52-69): width hi(r) + 1 -/
def subsampleIdxW (s : Nat) (samples sortedIdx markToSample : List Nat) : Option IntVec := do
  let idx ← SrIndex.subsampleIdx s samples sortedIdx markToSample
  return .store (hiBit samples.length + 1) idx

/-- the kept samples (sr_index.h:614-616, sr_csa.h:912-914, sr_csa_psi.h:562-566): the width of the samples; also the positions of the kept
    samples (sr_csa.h:1161-1163) -/
def pickW (from_ idx : IntVec) : Option IntVec := do
  let l ← idx.vals.mapM (fun i => from_.vals[i]?)
  return .store from_.width l

/-- links from the kept samples to marks, with the width of the sample indices (sr_index.h:627-641, sr_csa.h:975-1016,
    sr_csa_psi.h:600-610), then the text positions of those marks, with the width of the marks (sr_index.h:660-664, sr_csa.h:942-946,
    sr_csa_psi.h:625-629) -/
def submarksW (link : Nat → Option Nat) (marks idx : IntVec) : Option IntVec := do
  let links ← idx.vals.mapM link
  pickW marks (.store idx.width links)

/-- the two vectors of the validity information (sr_index.h:717-735, sr_csa.h:1198-1213): widths hi(r') + 1 and hi(max_valid_area) + 1.
    In sr_csa_psi.h:791 the first one is made with `hi(r') + 1` as default value, so its width is 64: `w` is that width. -/
def validityW (w : Nat) (q : List (Nat × Nat)) : List Nat × List Nat :=
  ((IntVec.store w (q.map (·.1))).vals, (IntVec.store (hiBit ((q.map (·.2)).foldl max 0) + 1) (q.map (·.2))).vals)

/-! ## The index types -/

/-- constructRIndex (r_index.h:297-321), as `RIndex.build` -/
def RIndex.buildW (T sa : List Nat) : Option RIndex := do
  let b ← constructBaseW T sa
  let links ← linksPhiBackwardW b.runs.firstTextPos.vals
  let marks ← bitVectorFromInts b.runs.firstTextPos.vals b.items.n false
  let n ← b.items.alphabet.C[b.items.alphabet.sigma]?
  return { alphabet := b.items.alphabet, bwtRle := b.items.bwtRle, samples := b.runs.lastTextPos.vals, marks := marks,
           markToSample := links.2.vals, n := n }

/-- constructSRI (sr_index.h:486-542), as `SrIndex.build` -/
def SrIndex.buildW (T sa : List Nat) (s : Nat) : Option SrIndex := do
  let b ← constructBaseW T sa
  let links ← linksPhiBackwardW b.runs.firstTextPos.vals
  let sortedIdx := sortIndicesW b.runs.lastTextPos.vals
  let idx ← subsampleIdxW s b.runs.lastTextPos.vals sortedIdx.vals links.2.vals
  let samples ← pickW b.runs.lastTextPos idx
  let samplesIdx ← bitVectorFromInts idx.vals b.runs.last.vals.length false
  let sub ← submarksW (fun i => cmod (i + 1) b.runs.first.vals.length) b.runs.firstTextPos idx
  let marks ← bitVectorFromInts sub.vals b.items.n false
  let n ← b.items.alphabet.C[b.items.alphabet.sigma]?
  return { base := { alphabet := b.items.alphabet, bwtRle := b.items.bwtRle, samples := samples.vals, marks := marks,
                     markToSample := (sortIndicesW sub.vals).vals, n := n },
           samplesIdx := samplesIdx, s := s }

/-- constructSRIValidMark (sr_index.h:546-571, 687-739), as `SrIndexValid.build` -/
def SrIndexValid.buildW (T sa : List Nat) (s : Nat) : Option SrIndexValid := do
  let sr ← SrIndex.buildW T sa s
  let b ← constructBaseW T sa
  let links ← linksPhiBackwardW b.runs.firstTextPos.vals
  let sortedIdx := sortIndicesW b.runs.lastTextPos.vals
  let idx ← subsampleIdxW s b.runs.lastTextPos.vals sortedIdx.vals links.2.vals
  let sub ← submarksW (fun i => cmod (i + 1) b.runs.first.vals.length) b.runs.firstTextPos idx
  let marks ← links.1.vals.mapM (fun i => b.runs.firstTextPos.vals[i]?)
  let validity ← computeSubmarksValidity marks (sortBy (fun x => x) sub.vals)
  let areas ← validity.mapM (fun q => csub q.2.2 q.2.1)
  let v := validityW (hiBit sub.vals.length + 1) ((validity.map (·.1)).zip areas)
  let validMarks ← bitVectorFromInts v.1 sub.vals.length true
  return { sr := sr, validMarks := validMarks, validAreas := v.2 }

/-- constructRCSAWithBWTRuns (r_csa.h:350-378), as `RCSABwt.build` -/
def RCSABwt.buildW (T sa : List Nat) : Option RCSA := do
  let b ← constructBaseW T sa
  let p ← constructPsiItemsW b.items
  let links ← linksPhiForwardBWTW b.items p
  let marks ← bitVectorFromInts b.runs.lastTextPos.vals b.items.n false
  let n ← b.items.alphabet.C[b.items.alphabet.sigma]?
  return { alphabet := b.items.alphabet, psi := p.core, n := n, samples := b.runs.firstTextPos.vals, marks := marks,
           markToSample := links.2.vals }

/-- constructItems(RCSAWithPsiRun) (r_csa.h:623-676), as `RCSAPsi.build` -/
def RCSAPsi.buildW (T sa : List Nat) : Option RCSA := do
  let b ← constructBaseW T sa
  let p ← constructPsiItemsW b.items
  let heads ← constructPsiRunsW b.items b.runs.first b.runs.firstTextPos
  let tails ← constructPsiRunsW b.items b.runs.last b.runs.lastTextPos
  let marks ← bitVectorFromInts tails.vals b.items.n false
  let links ← linksPhiForwardPsiW tails.vals
  let n ← b.items.alphabet.C[b.items.alphabet.sigma]?
  return { alphabet := b.items.alphabet, psi := p.core, n := n, samples := heads.vals, marks := marks, markToSample := links.2.vals }

/-- what constructSrCSACommonsWithBWTRuns leaves in the cache (sr_csa.h:876-1050), as `SrCSA.Commons` -/
structure CommonsW where
  base : BaseItemsW
  psi : PsiItems
  idx : IntVec
  samples : IntVec
  sub : IntVec
  sortedMarksIdx : IntVec

/-- the link of a kept sample (sr_csa.h:1013-1016, phi.h:237-253) -/
def sampleLinkBWT (b : BaseItems) (p : PsiItems) (n i : Nat) : Option Nat := do
  let pos ← b.runs.first[i]?
  SrCSA.sampleToMarkLink (basicLF b.bwtRle b.alphabet.C) (psiApply p.core.select b.alphabet.C) (lowerBound b.runs.last) n pos

def SrCSA.commonsW (T sa : List Nat) (s : Nat) : Option CommonsW := do
  let b ← constructBaseW T sa
  let p ← constructPsiItemsW b.items
  let links ← linksPhiForwardBWTW b.items p
  let idx ← subsampleIdxW s b.runs.firstTextPos.vals (sortIndicesW b.runs.firstTextPos.vals).vals.reverse links.2.vals
  let samples ← pickW b.runs.firstTextPos idx
  let n ← b.items.alphabet.C[b.items.alphabet.sigma]?
  let sub ← submarksW (sampleLinkBWT b.items p n) b.runs.lastTextPos idx
  return { base := b, psi := p, idx := idx, samples := samples, sub := sub, sortedMarksIdx := links.1 }

/-- construct(SrCSA) (sr_csa.h:796-828, 1151-1166), as `SrCSA.build` -/
def SrCSA.buildW (T sa : List Nat) (s : Nat) : Option SrCSA := do
  let k ← SrCSA.commonsW T sa s
  let marks ← bitVectorFromInts k.sub.vals k.base.items.n false
  let pos ← pickW k.base.runs.first k.idx
  let bv ← bitVectorFromInts pos.vals k.base.items.n false
  let n ← k.base.items.alphabet.C[k.base.items.alphabet.sigma]?
  return { alphabet := k.base.items.alphabet, psi := k.psi.core, n := n, samples := k.samples.vals, marks := marks,
           markToSample := (sortIndicesW k.sub.vals).vals, samplesIdx := bv, cumRuns := [], s := s }

/-- constructSamplesSortedByAlphabet (sr_csa.h:1052-1087): both files have width hi(r) + 1 -/
def sortedByAlphabetW (P : PsiCoreRLE) (first cs : List Nat) : Option (IntVec × IntVec) := do
  let (l, cum) ← SrCSA.sortedByAlphabet P first cs 0
  return (.store (hiBit first.length + 1) l, .store (hiBit first.length + 1) cum)

/-- the loop of constructSubsamplingBackwardSamplesSortedByAlphabet (sr_csa.h:1119-1130): `w` is the width of subsamples_idx_to_sorted -/
def slimLoopW (w : Nat) (bv : List Bool) (subs : List Nat) : Nat → Nat → List Nat → List Nat →
    Option (List Nat × List Nat × List Nat)
  | _, _, toSorted, [] => some ([], [], toSorted)
  | i, cnt, toSorted, idx :: rest => do
    let b ← bv[idx]?
    if b then
      let rnk ← bvRank bv idx
      let v ← subs[rnk]?
      assertC (decide (rnk < toSorted.length))
      let (l1, l2, t) ← slimLoopW w bv subs (i + 1) (cnt + 1) (toSorted.set rnk (cnt % 2 ^ w)) rest
      return (v :: l1, i :: l2, t)
    else slimLoopW w bv subs (i + 1) cnt toSorted rest

/-- construct(SrCSASlim) (sr_csa.h:753-792, 1089-1149), as `SrCSA.buildSlim`: the samples with the width of the kept samples (line 1113),
    their indices with that of the kept indices (1105, 1116), the links with that of the links (1141) -/
def SrCSA.buildSlimW (T sa : List Nat) (s : Nat) : Option SrCSA := do
  let k ← SrCSA.commonsW T sa s
  let marks ← bitVectorFromInts k.sub.vals k.base.items.n false
  let (sorted, cum) ← sortedByAlphabetW k.psi.core k.base.runs.first.vals (List.range k.psi.core.parts.length)
  let idxBv ← bitVectorFromInts k.idx.vals sorted.vals.length false
  let (samples, idxSorted, toSorted) ←
    slimLoopW k.idx.width idxBv k.samples.vals 0 0 (List.replicate k.idx.vals.length 0) sorted.vals
  let samples := IntVec.store k.samples.width samples
  let idxSorted := IntVec.store k.idx.width idxSorted
  let m2s := sortIndicesW k.sub.vals
  let links ← m2s.vals.mapM (fun i => toSorted[i]?)
  let links := IntVec.store m2s.width links
  let bv ← bitVectorFromInts idxSorted.vals k.base.runs.first.vals.length false
  let n ← k.base.items.alphabet.C[k.base.items.alphabet.sigma]?
  return { alphabet := k.base.items.alphabet, psi := k.psi.core, n := n, samples := samples.vals, marks := marks,
           markToSample := links.vals, samplesIdx := bv, cumRuns := cum.vals, s := s }

/-- what constructItems(SrCSAWithPsiRun) leaves in the cache, as `SrCSA.PsiCommons` -/
structure PsiCommonsW where
  csa : SrCSA
  tails : IntVec
  sub : IntVec

/-- constructItems(SrCSAWithPsiRun) (sr_csa_psi.h:473-729), as `SrCSA.commonsPsi`; the cumulative counts have width hi(r) + 1 (715-716) -/
def SrCSA.commonsPsiW (T sa : List Nat) (s : Nat) : Option PsiCommonsW := do
  let b ← constructBaseW T sa
  let p ← constructPsiItemsW b.items
  let heads ← constructPsiRunsW b.items b.runs.first b.runs.firstTextPos
  let tails ← constructPsiRunsW b.items b.runs.last b.runs.lastTextPos
  let links ← linksPhiForwardPsiW tails.vals
  let idx ← subsampleIdxW s heads.vals (sortIndicesW heads.vals).vals.reverse links.2.vals
  let samples ← pickW heads idx
  let sub ← submarksW (fun i => do
    let x ← csub (i + heads.vals.length) 1
    cmod x heads.vals.length) tails idx
  let marks ← bitVectorFromInts sub.vals b.items.n false
  let bv ← bitVectorFromInts idx.vals heads.vals.length false
  let cum ← SrCSA.cumulative p.core (List.range p.core.parts.length) 0
  let n ← b.items.alphabet.C[b.items.alphabet.sigma]?
  return { csa := { alphabet := b.items.alphabet, psi := p.core, n := n, samples := samples.vals, marks := marks,
                    markToSample := (sortIndicesW sub.vals).vals, samplesIdx := bv,
                    cumRuns := (IntVec.store (hiBit heads.vals.length + 1) cum).vals, s := s },
           tails := tails, sub := sub }

def SrCSA.buildPsiW (T sa : List Nat) (s : Nat) : Option SrCSA := do
  let k ← SrCSA.commonsPsiW T sa s
  return k.csa

/-- constructSubsamplingBackwardMarksValidity (sr_csa.h:1168-1219) and constructSubmarksValidity (sr_csa_psi.h:759-802), as
    `SrCSAValid.validity`; `w` is the width of the first vector -/
def SrCSAValid.validityW (w : Nat) (marks sub : List Nat) : Option (List Bool × List Nat) := do
  let l ← computeSubmarksValidity marks.reverse (sortBy (fun x => x) sub).reverse
  let q ← l.reverse.mapM (fun (q : Nat × Nat × Nat) => do
    let i ← csub sub.length q.1
    let i ← csub i 1
    let a ← csub q.2.1 q.2.2
    return (i, a))
  let v := Sri.validityW w q
  let bv ← bitVectorFromInts v.1 sub.length true
  return (bv, v.2)

/-- construct(SrCSAValidMark) over SrCSA, and construct(SrCSAValidArea) (sr_csa.h:832-874), as `SrCSAValid.build` -/
def SrCSAValid.buildW (T sa : List Nat) (s : Nat) : Option SrCSAValid := do
  let I ← SrCSA.buildW T sa s
  let k ← SrCSA.commonsW T sa s
  let marks ← k.sortedMarksIdx.vals.mapM (fun i => k.base.runs.lastTextPos.vals[i]?)
  let (bv, areas) ← SrCSAValid.validityW (hiBit k.sub.vals.length + 1) marks k.sub.vals
  return { csa := I, validMarks := bv, validAreas := areas }

/-- the same over SrCSASlim, as `SrCSAValid.buildSlim` -/
def SrCSAValid.buildSlimW (T sa : List Nat) (s : Nat) : Option SrCSAValid := do
  let I ← SrCSA.buildSlimW T sa s
  let k ← SrCSA.commonsW T sa s
  let marks ← k.sortedMarksIdx.vals.mapM (fun i => k.base.runs.lastTextPos.vals[i]?)
  let (bv, areas) ← SrCSAValid.validityW (hiBit k.sub.vals.length + 1) marks k.sub.vals
  return { csa := I, validMarks := bv, validAreas := areas }

/-- constructItems(SRCSAValidMark) and constructItems(SRCSAValidArea) (sr_csa_psi.h:733-830), as `SrCSAValid.buildPsi`; the valid marks
    are stored in cells of 64 bits (line 791) -/
def SrCSAValid.buildPsiW (T sa : List Nat) (s : Nat) : Option SrCSAValid := do
  let k ← SrCSA.commonsPsiW T sa s
  let (bv, areas) ← SrCSAValid.validityW 64 (sortBy (fun x => x) k.tails.vals) k.sub.vals
  return { csa := k.csa, validMarks := bv, validAreas := areas }

/-- `buildIndex` with the widths -/
def buildIndexW (t : IndexType) (T sa : List Nat) (s : Nat) : Option Queries :=
  match t with
  | .rIndex => (RIndex.buildW T sa).map (fun I => ⟨I.count, I.locate⟩)
  | .srIndex => (SrIndex.buildW T sa s).map (fun I => ⟨I.count, I.locate⟩)
  | .srIndexValidMark => (SrIndexValid.buildW T sa s).map (fun I => ⟨I.countMark, I.locateMark⟩)
  | .srIndexValidArea => (SrIndexValid.buildW T sa s).map (fun I => ⟨I.countArea, I.locateArea⟩)
  | .rcsaWithBWTRun => (RCSABwt.buildW T sa).map (fun I => ⟨RCSABwt.count I, RCSABwt.locate I⟩)
  | .rcsaWithPsiRun => (RCSAPsi.buildW T sa).map (fun I => ⟨RCSAPsi.count I, RCSAPsi.locate I⟩)
  | .srCSA => (SrCSA.buildW T sa s).map (fun I => ⟨I.count, I.locate⟩)
  | .srCSASlim => (SrCSA.buildSlimW T sa s).map (fun I => ⟨I.countSlim, I.locateSlim⟩)
  | .srCSAValidMark => (SrCSAValid.buildW T sa s).map (fun I => ⟨I.countMark, I.locateMark⟩)
  | .srCSAValidArea => (SrCSAValid.buildW T sa s).map (fun I => ⟨I.countArea, I.locateArea⟩)
  | .srCSASlimValidMark => (SrCSAValid.buildSlimW T sa s).map (fun I => ⟨I.countMarkSlim, I.locateMarkSlim⟩)
  | .srCSASlimValidArea => (SrCSAValid.buildSlimW T sa s).map (fun I => ⟨I.countAreaSlim, I.locateAreaSlim⟩)
  | .srCSAWithPsiRun => (SrCSA.buildPsiW T sa s).map (fun I => ⟨I.countSlim, I.locateSlim⟩)
  | .psiValidMark => (SrCSAValid.buildPsiW T sa s).map (fun I => ⟨I.countMarkSlim, I.locateMarkSlim⟩)
  | .psiValidArea => (SrCSAValid.buildPsiW T sa s).map (fun I => ⟨I.countAreaSlim, I.locateAreaSlim⟩)

end Sri
