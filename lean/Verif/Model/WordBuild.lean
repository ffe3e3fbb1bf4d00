import Verif.Model.Words
import Verif.Model.IntCounters
/-! # The construction in machine arithmetic

The functions that compute the items of the indexes once more, with every `+`, `-`, `++`, `+=` on `std::size_t` taken modulo 2^64, in the order of
evaluation of the C++ expression, with no fault on wrap-around, and with the counters declared `int` as `int`s: `++` on `INT_MAX` is a
fault (`intInc`). The names are those of the models with natural numbers followed by `M`. Reading or writing outside a vector and `% 0` are
faults as there. The library code is the same as there: suffix array, BWT, alphabet, sorting, `std::lower_bound`, bit vectors, wavelet tree and
`enc_vector` (whose differences are 64-bit words in that model already). -/
namespace Sri
set_option autoImplicit false

/-- the lambda get_bwt_text_pos (construct_sdsl.h:62-65) -/
def bwtTextPosM (n p : Nat) : Nat := if 0 < p then wsub p 1 else wsub n 1

/-- the loop of constructBWTRuns with its `int` counter (construct_sdsl.h:87-114), as `bwtRunsLoop`; `i - 1` is an `int`, `n - 1` a word -/
def bwtRunsLoopM (n : Nat) : Nat → Nat → Nat → List (Nat × Nat) → Option BWTRuns
  | _, _, prevPos, [] => some { first := [], firstTextPos := [], last := [wsub n 1], lastTextPos := [prevPos] }
  | i, prevSym, prevPos, (sym, pos) :: rest => do
    let i' ← intInc i
    if sym ≠ prevSym then
      let e ← bwtRunsLoopM n i' sym pos rest
      return { first := i :: e.first, firstTextPos := pos :: e.firstTextPos,
               last := (i - 1) :: e.last, lastTextPos := prevPos :: e.lastTextPos }
    else bwtRunsLoopM n i' prevSym pos rest

/-- constructBWTRuns (construct_sdsl.h:43-123) -/
def constructBWTRunsM (bwt sa : List Nat) : Option BWTRuns :=
  match (bwt.zip (sa.map (bwtTextPosM bwt.length))) with
  | [] => none
  | (sym, pos) :: rest => do
    let e ← bwtRunsLoopM bwt.length 1 sym pos rest
    return { e with first := 0 :: e.first, firstTextPos := pos :: e.firstTextPos }

namespace RLEString

/-- the loop of the constructor (rle_string.hpp:676-698) -/
def emitM (b : Nat) (symbol r : Nat) : List Nat → RLEEmit
  | [] => { heads := [symbol], runs := [false], per := [(symbol, true)], r := add64 r 1 }
  | next :: rest =>
    if symbol ≠ next then
      let e := emitM b next (add64 r 1) rest
      { heads := symbol :: e.heads, runs := (r % b == wsub b 1) :: e.runs, per := (symbol, true) :: e.per, r := e.r }
    else
      let e := emitM b symbol r rest
      { e with runs := false :: e.runs, per := (symbol, false) :: e.per }

/-- the constructor (rle_string.hpp:667-712); `rbegin()->first + 1` (line 705) is the number of bit vectors. Writing the bit vector of a symbol
    outside the vector of bit vectors, which happens if that sum wraps around, is a fault. -/
def buildM (xs : List Nat) (b : Nat) : Option RLEString :=
  match xs with
  | [] => none
  | x :: rest =>
    if b = 0 then none else do
    let e := emitM b x 0 rest
    let top := (e.per.map (·.1)).foldl max 0
    assertC (decide (top < add64 top 1))
    return { r := e.r, b := b, runHeads := e.heads, runs := e.runs,
             perSym := (List.range (add64 top 1)).map (fun c => (e.per.filter (fun q => q.1 == c)).map (·.2)) }

end RLEString

/-- constructIndexBaseItems (construct_sdsl.h:126-161) after the text and its suffix array, with constructBWTRLE (construct_base.h:73-93) -/
def constructBaseM (T sa : List Nat) : Option BaseItems := do
  let bwt := constructBWT T sa
  let runs ← constructBWTRunsM bwt sa
  let a := Alphabet.build bwt
  let rle ← RLEString.buildM (bwt.map a.char2comp) 2
  return { n := bwt.length, alphabet := a, bwtRle := rle, runs := runs }

/-! ## psi -/

/-- the loop of constructPsi (psi.h:32-34): `psi[sa_position[c]++] = i` -/
def psiLoopM : List Nat → Nat → List Nat → List Nat → Option (List Nat)
  | [], _, _, psi => some psi
  | c :: bwt, i, saPos, psi => do
    let p ← saPos[c]?
    assertC (decide (p < psi.length))
    psiLoopM bwt (add64 i 1) (saPos.set c (add64 p 1)) (psi.set p i)

/-- constructPsi (psi.h:24-37); `size() - 1` of an empty array is an index outside it -/
def constructPsiM (bwt C : List Nat) : Option (List Nat) := do
  let n ← C[wsub C.length 1]?
  assertC (decide (n = bwt.length))
  psiLoopM bwt 0 C (List.replicate n 0)

namespace PsiCoreRLE

/-- the loop over the psi values of one symbol (psi.h:86-99): `j` is the position in psi and `sp` that of the first value of the symbol -/
def runLoopM (dens sp : Nat) : List Nat → List Nat → Nat → Nat → Nat → List Nat → List Nat × List Nat
  | acc, ranks, _, s, e, [] => (acc ++ [s, e], ranks)
  | acc, ranks, j, s, e, v :: vs =>
    if e = v then runLoopM dens sp acc ranks (add64 j 1) s (add64 e 1) vs
    else
      let acc := acc ++ [s, e]
      let ranks := if acc.length % dens = 0 then ranks ++ [wsub j sp] else ranks
      runLoopM dens sp acc ranks (add64 j 1) v (add64 v 1) vs

/-- the partial psi of one symbol (psi.h:79-105) -/
def buildPartM (dens sp : Nat) (vals : List Nat) : EncVector × List Nat :=
  match vals with
  | [] => (EncVector.build dens [], [])
  | v :: vs =>
    let r := runLoopM dens sp [] [] (add64 sp 1) v (add64 v 1) vs
    (EncVector.build dens r.1, r.2)

/-- the loop of the constructor (psi.h:71-106) -/
def buildLoopM (dens : Nat) (C psi : List Nat) : List Nat → Nat → List (EncVector × List Nat) → Option (Nat × List (EncVector × List Nat))
  | [], first, parts => some (first, parts)
  | i :: is, first, parts => do
    let sp ← C[i]?
    let ep ← C[add64 i 1]?
    let v ← psi[sp]?
    assertC (decide (ep ≤ psi.length))
    let first := if v = 0 then i else first
    buildLoopM dens C psi is first (parts ++ [buildPartM dens sp ((psi.drop sp).take (ep - sp))])

/-- the constructor (psi.h:65-107) -/
def buildM (dens : Nat) (C psi : List Nat) : Option PsiCoreRLE := do
  let n ← C[wsub C.length 1]?
  let (first, parts) ← buildLoopM dens C psi (List.range (wsub C.length 1)) 0 []
  return { n := n, first := first, parts := parts }

end PsiCoreRLE

/-- constructPsi(config) (construct.h:69-92) -/
def constructPsiItemsM (b : BaseItems) : Option PsiItems := do
  let syms ← (List.range b.n).mapM b.bwtRle.access64
  let psi ← constructPsiM syms b.alphabet.C
  let core ← PsiCoreRLE.buildM 64 b.alphabet.C psi
  return { psi := psi, core := core }

/-- BasicLF::operator() (bwt.h:124-127) with the functions of construct.h:178-190 -/
def basicLFM (S : RLEString) (C : List Nat) (i : Nat) : Option Nat := do
  let c ← S.access64 i
  let f ← C[c]?
  let r ← S.rank64 i c
  return add64 f r

/-- Psi::operator() (psi.h:744-747) with computeCForSAIndex (psi.h:725-729) and PsiCoreRLE::select -/
def psiApplyM (P : PsiCoreRLE) (C : List Nat) (i : Nat) : Option Nat := do
  let (c, k) ← symbolRank64 C i
  P.select64 c k

/-! ## Links, sub-sampling, validity -/

/-- constructMarkToSampleLinksForPhiBackward (construct.h:242-256): `(k + r - 1) % r` -/
def linksPhiBackwardM (marks : List Nat) : Option (List Nat × List Nat) :=
  constructMarkToSampleLinks marks (fun k => cmod (wsub (add64 k marks.length) 1) marks.length)

/-- computeMarkToSampleLinkForPhiForward (phi.h:214-227) -/
def markToSampleLinkM (lf psi : Nat → Option Nat) (rankSample : Nat → Nat) (n markPos : Nat) : Option Nat := do
  let j ← lf markPos
  let i ← cmod (add64 j 1) n
  let k ← psi i
  return rankSample k

/-- constructMarkToSampleLinksForPhiForwardWithBWTRuns (construct.h:168-221) -/
def linksPhiForwardBWTM (b : BaseItems) (p : PsiItems) : Option (List Nat × List Nat) := do
  let n ← b.alphabet.C[b.alphabet.sigma]?
  constructMarkToSampleLinks b.runs.lastTextPos (fun m => do
    let pos ← b.runs.last[m]?
    markToSampleLinkM (basicLFM b.bwtRle b.alphabet.C) (psiApplyM p.core b.alphabet.C) (lowerBound b.runs.first) n pos)

/-- constructPsiRuns for one part (construct.h:108-136) -/
def constructPsiRunsM (b : BaseItems) (pos textPos : List Nat) : Option (List Nat) := do
  let bs ← bucketLoop b.bwtRle.access64 (pos.zip textPos) (List.replicate b.alphabet.sigma [])
  return bs.flatten

/-- constructMarkToSampleLinksForPhiForwardWithPsiRuns (construct.h:223-239) -/
def linksPhiForwardPsiM (marks : List Nat) : Option (List Nat × List Nat) :=
  constructMarkToSampleLinks marks (fun m => cmod (add64 m 1) marks.length)

/-- the loop of computeSampling (sampling.h:34-48) -/
def samplingLoopM (s : Nat) (values req : List Nat) : Nat → Nat → Nat → List Nat → Option (List Nat)
  | _, prevIdx, _, [] => some [prevIdx]
  | last, prevIdx, prev, currIdx :: rest => do
    let curr ← values[currIdx]?
    if s < (if curr < last then wsub last curr else wsub curr last) ∨ prevIdx ∈ req then do
      let l ← samplingLoopM s values req prev currIdx curr rest
      return prevIdx :: l
    else samplingLoopM s values req last currIdx curr rest

/-- computeSampling (sampling.h:15-50) -/
def computeSamplingM (s : Nat) (idxs values req : List Nat) : Option (List Nat) :=
  match idxs with
  | [] => some []
  | f :: rest => do
    let last ← values[f]?
    match rest with
    | [] => return [f]
    | p :: rest => do
      let prev ← values[p]?
      let l ← samplingLoopM s values req last p prev rest
      return f :: l

/-- sub-sampling of the samples (sr_index.h:573-631, sr_csa.h:876-918, sr_csa_psi.h:533-567), with the first and the last link required
    (sr_index.h:587-592, construct.h:60-66) -/
def subsampleIdxM (s : Nat) (samples sortedIdx markToSample : List Nat) : Option (List Nat) := do
  let a ← markToSample[0]?
  let b ← markToSample[wsub markToSample.length 1]?
  let l ← computeSamplingM s sortedIdx samples [a, b]
  return sortBy (fun i => i) l

/-- the loop of computeSubmarksValidity (construct.h:266-279); the remaining submarks tell whether `i < t_r_prime - 1` -/
def submarksLoopM : Nat → Nat → List Nat → List Nat → Option (List (Nat × Nat × Nat))
  | _, _, _, [] => some []
  | _, _, [], _ :: _ => none
  | i, submark, nextMark :: marks, nextSubmark :: submarks =>
    if nextMark ≠ nextSubmark then do
      let marks ← skipMarks nextSubmark marks
      let l ← submarksLoopM (add64 i 1) nextSubmark marks submarks
      return (i, submark, nextMark) :: l
    else submarksLoopM (add64 i 1) nextSubmark marks submarks

/-- computeSubmarksValidity (construct.h:258-280) -/
def computeSubmarksValidityM (marks submarks : List Nat) : Option (List (Nat × Nat × Nat)) :=
  match marks, submarks with
  | _ :: marks, submark :: submarks => submarksLoopM 0 submark marks submarks
  | _, _ => none

namespace RIndex

/-- constructRIndex (r_index.h:297-321) and load -/
def buildM (T sa : List Nat) : Option RIndex := do
  let b ← constructBaseM T sa
  let links ← linksPhiBackwardM b.runs.firstTextPos
  let marks ← bitVectorFromInts b.runs.firstTextPos b.n false
  let n ← b.alphabet.C[b.alphabet.sigma]?
  return { alphabet := b.alphabet, bwtRle := b.bwtRle, samples := b.runs.lastTextPos, marks := marks,
           markToSample := links.2, n := n }

end RIndex

namespace SrIndex

/-- computeSampleToMarkLinksForPhiBackward with its `int` counter (sr_index.h:633-653) and the transform that follows (sr_index.h:669-672) -/
def submarksM (marks : List Nat) (idx : List Nat) : Option (List Nat) := do
  let links ← fillLoopInt (fun i => cmod (add64 i 1) marks.length) 0 idx
  links.mapM (fun k => marks[k]?)

/-- constructSRI (sr_index.h:486-542) and load -/
def buildM (T sa : List Nat) (s : Nat) : Option SrIndex := do
  let b ← constructBaseM T sa
  let links ← linksPhiBackwardM b.runs.firstTextPos
  let sortedIdx := sortIndices b.runs.lastTextPos
  let idx ← subsampleIdxM s b.runs.lastTextPos sortedIdx links.2
  let samples ← idx.mapM (fun i => b.runs.lastTextPos[i]?)
  let samplesIdx ← bitVectorFromInts idx b.runs.last.length false
  let sub ← submarksM b.runs.firstTextPos idx
  let marks ← bitVectorFromInts sub b.n false
  let n ← b.alphabet.C[b.alphabet.sigma]?
  return { base := { alphabet := b.alphabet, bwtRle := b.bwtRle, samples := samples, marks := marks,
                     markToSample := sortIndices sub, n := n },
           samplesIdx := samplesIdx, s := s }

end SrIndex

namespace SrIndexValid

/-- constructSRIValidMark (sr_index.h:546-571) with constructSubsamplingForwardMarksValidity (sr_index.h:687-739), and load -/
def buildM (T sa : List Nat) (s : Nat) : Option SrIndexValid := do
  let sr ← SrIndex.buildM T sa s
  let b ← constructBaseM T sa
  let links ← linksPhiBackwardM b.runs.firstTextPos
  let sortedIdx := sortIndices b.runs.lastTextPos
  let idx ← subsampleIdxM s b.runs.lastTextPos sortedIdx links.2
  let sub ← SrIndex.submarksM b.runs.firstTextPos idx
  let marks ← links.1.mapM (fun i => b.runs.firstTextPos[i]?)
  let validity ← computeSubmarksValidityM marks (sortBy (fun x => x) sub)
  let areas := validity.map (fun q => wsub q.2.2 q.2.1)
  let validMarks ← bitVectorFromInts (validity.map (·.1)) sub.length true
  return { sr := sr, validMarks := validMarks, validAreas := areas }

end SrIndexValid

namespace RCSABwt

/-- constructRCSAWithBWTRuns (r_csa.h:350-378) and load -/
def buildM (T sa : List Nat) : Option RCSA := do
  let b ← constructBaseM T sa
  let p ← constructPsiItemsM b
  let links ← linksPhiForwardBWTM b p
  let marks ← bitVectorFromInts b.runs.lastTextPos b.n false
  let n ← b.alphabet.C[b.alphabet.sigma]?
  return { alphabet := b.alphabet, psi := p.core, n := n, samples := b.runs.firstTextPos, marks := marks, markToSample := links.2 }

end RCSABwt

namespace RCSAPsi

/-- constructItems (r_csa.h:623-676) and load -/
def buildM (T sa : List Nat) : Option RCSA := do
  let b ← constructBaseM T sa
  let p ← constructPsiItemsM b
  let heads ← constructPsiRunsM b b.runs.first b.runs.firstTextPos
  let tails ← constructPsiRunsM b b.runs.last b.runs.lastTextPos
  let marks ← bitVectorFromInts tails b.n false
  let links ← linksPhiForwardPsiM tails
  let n ← b.alphabet.C[b.alphabet.sigma]?
  return { alphabet := b.alphabet, psi := p.core, n := n, samples := heads, marks := marks, markToSample := links.2 }

end RCSAPsi

namespace SrCSA

/-- computeSampleToMarkLinkForPhiForward (phi.h:237-253) -/
def sampleToMarkLinkM (lf psi : Nat → Option Nat) (rankMark : Nat → Nat) (n samplePos : Nat) : Option Nat := do
  let j ← lf samplePos
  let i ← cmod (wsub (add64 j n) 1) n
  let k ← psi i
  return rankMark k

/-- computeSampleToMarkLinksForPhiForward with its `int` counter and the transform that follows (sr_csa.h:930-947, 969-1019) -/
def submarksBWTM (b : BaseItems) (p : PsiItems) (idx : List Nat) : Option (List Nat) := do
  let n ← b.alphabet.C[b.alphabet.sigma]?
  let links ← fillLoopInt (fun i => do
    let pos ← b.runs.first[i]?
    sampleToMarkLinkM (basicLFM b.bwtRle b.alphabet.C) (psiApplyM p.core b.alphabet.C) (lowerBound b.runs.last) n pos) 0 idx
  links.mapM (fun k => b.runs.lastTextPos[k]?)

/-- constructRCSAWithBWTRuns (r_csa.h:350-378), the sub-sampling of the samples and of the marks (sr_csa.h:876-966), as `commons` -/
def commonsM (T sa : List Nat) (s : Nat) : Option Commons := do
  let b ← constructBaseM T sa
  let p ← constructPsiItemsM b
  let links ← linksPhiForwardBWTM b p
  let idx ← subsampleIdxM s b.runs.firstTextPos (sortIndices b.runs.firstTextPos).reverse links.2
  let samples ← idx.mapM (fun i => b.runs.firstTextPos[i]?)
  let sub ← submarksBWTM b p idx
  return { base := b, psi := p, idx := idx, samples := samples, sub := sub, sortedMarksIdx := links.1 }

/-- construct(SrCSA) (sr_csa.h:796-828) with constructSubsamplingBackwardSamplesPosition (sr_csa.h:1151-1166), and load -/
def buildM (T sa : List Nat) (s : Nat) : Option SrCSA := do
  let k ← commonsM T sa s
  let marks ← bitVectorFromInts k.sub k.base.n false
  let pos ← k.idx.mapM (fun i => k.base.runs.first[i]?)
  let bv ← bitVectorFromInts pos k.base.n false
  let n ← k.base.alphabet.C[k.base.alphabet.sigma]?
  return { alphabet := k.base.alphabet, psi := k.psi.core, n := n, samples := k.samples, marks := marks, markToSample := sortIndices k.sub,
           samplesIdx := bv, cumRuns := [], s := s }

/-- the report of constructSamplesSortedByAlphabet over the runs of one symbol (sr_csa.h:1066-1070): `++n_runs` -/
def countRunsM : List (Nat × Nat) → Nat → Nat
  | [], count => count
  | _ :: l, count => countRunsM l (add64 count 1)

/-- constructSamplesSortedByAlphabet (sr_csa.h:1052-1087) -/
def sortedByAlphabetM (P : PsiCoreRLE) (first : List Nat) : List Nat → Nat → Option (List Nat × List Nat)
  | [], _ => some ([], [])
  | c :: cs, count => do
    let runs ← P.traverse64 c
    let (l, cum) ← sortedByAlphabetM P first cs (countRunsM runs count)
    return (runs.map (fun q => lowerBound first q.1) ++ l, countRunsM runs count :: cum)

/-- the loop of constructSubsamplingBackwardSamplesSortedByAlphabet (sr_csa.h:1119-1130) -/
def slimLoopM (bv : List Bool) (subs : List Nat) : Nat → Nat → List Nat → List Nat → Option (List Nat × List Nat × List Nat)
  | _, _, toSorted, [] => some ([], [], toSorted)
  | i, cnt, toSorted, idx :: rest => do
    let b ← bv[idx]?
    if b then
      let rnk ← bvRank bv idx
      let v ← subs[rnk]?
      assertC (decide (rnk < toSorted.length))
      let (l1, l2, t) ← slimLoopM bv subs (add64 i 1) (add64 cnt 1) (toSorted.set rnk cnt) rest
      return (v :: l1, i :: l2, t)
    else slimLoopM bv subs (add64 i 1) cnt toSorted rest

/-- construct(SrCSASlim) (sr_csa.h:753-792) with constructSubsamplingBackwardSamplesSortedByAlphabet (sr_csa.h:1089-1149), and load -/
def buildSlimM (T sa : List Nat) (s : Nat) : Option SrCSA := do
  let k ← commonsM T sa s
  let marks ← bitVectorFromInts k.sub k.base.n false
  let (sorted, cum) ← sortedByAlphabetM k.psi.core k.base.runs.first (List.range k.psi.core.parts.length) 0
  let idxBv ← bitVectorFromInts k.idx sorted.length false
  let (samples, idxSorted, toSorted) ← slimLoopM idxBv k.samples 0 0 (List.replicate k.idx.length 0) sorted
  let links ← (sortIndices k.sub).mapM (fun i => toSorted[i]?)
  let bv ← bitVectorFromInts idxSorted k.base.runs.first.length false
  let n ← k.base.alphabet.C[k.base.alphabet.sigma]?
  return { alphabet := k.base.alphabet, psi := k.psi.core, n := n, samples := samples, marks := marks, markToSample := links,
           samplesIdx := bv, cumRuns := cum, s := s }

/-- computeSampleToMarkLinksForPhiForwardWithPsiRuns with its `int` counter and computeSubmarksForPhiForwardWithPsiRuns (sr_csa_psi.h:591-634) -/
def submarksPsiM (tails : List Nat) (r : Nat) (idx : List Nat) : Option (List Nat) := do
  let links ← fillLoopInt (fun i => cmod (wsub (add64 i r) 1) r) 0 idx
  links.mapM (fun k => tails[k]?)

/-- the loop of constructCumulativeCountsWithPsiRuns (sr_csa_psi.h:712-729): `n_runs += countRuns(i)` -/
def cumulativeM (P : PsiCoreRLE) : List Nat → Nat → Option (List Nat)
  | [], _ => some []
  | c :: cs, count => do
    let k ← P.countRuns c
    let cum ← cumulativeM P cs (add64 count k)
    return add64 count k :: cum

/-- constructItems(SrCSAWithPsiRun) (sr_csa_psi.h:473-531, 533-567, 591-729) and load -/
def commonsPsiM (T sa : List Nat) (s : Nat) : Option PsiCommons := do
  let b ← constructBaseM T sa
  let p ← constructPsiItemsM b
  let heads ← constructPsiRunsM b b.runs.first b.runs.firstTextPos
  let tails ← constructPsiRunsM b b.runs.last b.runs.lastTextPos
  let links ← linksPhiForwardPsiM tails
  let idx ← subsampleIdxM s heads (sortIndices heads).reverse links.2
  let samples ← idx.mapM (fun i => heads[i]?)
  let sub ← submarksPsiM tails heads.length idx
  let marks ← bitVectorFromInts sub b.n false
  let bv ← bitVectorFromInts idx heads.length false
  let cum ← cumulativeM p.core (List.range p.core.parts.length) 0
  let n ← b.alphabet.C[b.alphabet.sigma]?
  return { csa := { alphabet := b.alphabet, psi := p.core, n := n, samples := samples, marks := marks, markToSample := sortIndices sub,
                    samplesIdx := bv, cumRuns := cum, s := s }, tails := tails, sub := sub }

/-- constructItems(SrCSAWithPsiRun) and load -/
def buildPsiM (T sa : List Nat) (s : Nat) : Option SrCSA := do
  let k ← commonsPsiM T sa s
  return k.csa

end SrCSA

namespace SrCSAValid

/-- constructSubsamplingBackwardMarksValidity (sr_csa.h:1168-1219) and constructSubmarksValidity (sr_csa_psi.h:759-802), as `validity` -/
def validityM (marks sub : List Nat) : Option (List Bool × List Nat) := do
  let l ← computeSubmarksValidityM marks.reverse (sortBy (fun x => x) sub).reverse
  let q := l.reverse.map (fun (q : Nat × Nat × Nat) => (wsub (wsub sub.length q.1) 1, wsub q.2.1 q.2.2))
  let bv ← bitVectorFromInts (q.map (·.1)) sub.length true
  return (bv, q.map (·.2))

/-- construct(SrCSAValidMark) over SrCSA, and construct(SrCSAValidArea) (sr_csa.h:832-874) -/
def buildM (T sa : List Nat) (s : Nat) : Option SrCSAValid := do
  let I ← SrCSA.buildM T sa s
  let k ← SrCSA.commonsM T sa s
  let marks ← k.sortedMarksIdx.mapM (fun i => k.base.runs.lastTextPos[i]?)
  let (bv, areas) ← validityM marks k.sub
  return { csa := I, validMarks := bv, validAreas := areas }

/-- construct(SrCSAValidMark) over SrCSASlim, and construct(SrCSAValidArea) (sr_csa.h:832-874) -/
def buildSlimM (T sa : List Nat) (s : Nat) : Option SrCSAValid := do
  let I ← SrCSA.buildSlimM T sa s
  let k ← SrCSA.commonsM T sa s
  let marks ← k.sortedMarksIdx.mapM (fun i => k.base.runs.lastTextPos[i]?)
  let (bv, areas) ← validityM marks k.sub
  return { csa := I, validMarks := bv, validAreas := areas }

/-- constructItems(SRCSAValidMark) and constructItems(SRCSAValidArea) (sr_csa_psi.h:733-757, 804-830) -/
def buildPsiM (T sa : List Nat) (s : Nat) : Option SrCSAValid := do
  let k ← SrCSA.commonsPsiM T sa s
  let (bv, areas) ← validityM (sortBy (fun x => x) k.tails) k.sub
  return { csa := k.csa, validMarks := bv, validAreas := areas }

end SrCSAValid

/-- an index whose construction and whose queries both compute with machine words; as `buildIndex64` otherwise -/
def buildIndexM (t : IndexType) (T sa : List Nat) (s : Nat) : Option Queries :=
  match t with
  | .rIndex => (RIndex.buildM T sa).map (fun I => queries64 I.functors64)
  | .srIndex => (SrIndex.buildM T sa s).map (fun I => queries64 (I.functorsWith64 I.phiForRange64))
  | .srIndexValidMark => (SrIndexValid.buildM T sa s).map (fun I => queries64 (I.sr.functorsWith64 (I.phiForRange64 I.phiMark64)))
  | .srIndexValidArea => (SrIndexValid.buildM T sa s).map (fun I => queries64 (I.sr.functorsWith64 (I.phiForRange64 I.phiArea64)))
  | .rcsaWithBWTRun => (RCSABwt.buildM T sa).map (fun I => queries64 (RCSABwt.functors64 I))
  | .rcsaWithPsiRun => (RCSAPsi.buildM T sa).map (fun I => queries64 (RCSAPsi.functors64 I))
  | .srCSA => (SrCSA.buildM T sa s).map (fun I => queries64 (I.functorsWith64 I.posOps64 (I.phiForRange64 I.posOps64)))
  | .srCSASlim => (SrCSA.buildSlimM T sa s).map (fun I => queries64 (I.functorsWith64 I.slimOps64 (I.phiForRange64 I.slimOps64)))
  | .srCSAValidMark => (SrCSAValid.buildM T sa s).map (fun I => queries64 (I.csa.functorsWith64 I.csa.posOps64 (I.phiForRange64 I.csa.posOps64 I.phiMark64)))
  | .srCSAValidArea => (SrCSAValid.buildM T sa s).map (fun I => queries64 (I.csa.functorsWith64 I.csa.posOps64 (I.phiForRange64 I.csa.posOps64 I.phiArea64)))
  | .srCSASlimValidMark => (SrCSAValid.buildSlimM T sa s).map (fun I => queries64 (I.csa.functorsWith64 I.csa.slimOps64 (I.phiForRange64 I.csa.slimOps64 I.phiMark64)))
  | .srCSASlimValidArea => (SrCSAValid.buildSlimM T sa s).map (fun I => queries64 (I.csa.functorsWith64 I.csa.slimOps64 (I.phiForRange64 I.csa.slimOps64 I.phiArea64)))
  | .srCSAWithPsiRun => (SrCSA.buildPsiM T sa s).map (fun I => queries64 (I.functorsWith64 I.slimOps64 (I.phiForRange64 I.slimOps64)))
  | .psiValidMark => (SrCSAValid.buildPsiM T sa s).map (fun I => queries64 (I.csa.functorsWith64 I.csa.slimOps64 (I.phiForRange64 I.csa.slimOps64 I.phiMark64)))
  | .psiValidArea => (SrCSAValid.buildPsiM T sa s).map (fun I => queries64 (I.csa.functorsWith64 I.csa.slimOps64 (I.phiForRange64 I.csa.slimOps64 I.phiArea64)))

end Sri
