import Verif.Model.Work
/-! # The work of a Count query

The functions a Count query runs, written again so that they also count the operations on the succinct structures of sdsl: each rank or
select on a bit vector, each rank, select or inverse select on the wavelet tree of the run heads, each code decoded, each sample of an
enc_vector and each sampled rank read counts 1. Arithmetic, comparisons of numbers at hand and reads of `C` and of the members of an index
are free. Every function here computes what the function it repeats computes (Proofs/CountWork). -/
namespace Sri
set_option autoImplicit false

namespace RLEString

/-- `(k == 0) ? 0 : select(k) + 1` (rle_string.hpp:747,771,798,960,1004), see `afterSelect` -/
def afterSelectW (bv : List Bool) (k : Nat) : Cost Nat :=
  if k = 0 then Cost.ret 0 else do
    let e ← Cost.call (bvSelect bv k)
    return e + 1

/-- computeSymbolRunData (rle_string.hpp:999-1005), see `computeSymbolRunData` -/
def computeSymbolRunDataW (s : RLEString) (q : Nat) : Cost RunData := do
  Cost.free (assertC (decide (q < s.r)))
  let (run, c) ← Cost.call (wtInverseSelect s.runHeads q)
  let bv ← Cost.free (s.perSym[c]?)
  let start ← afterSelectW bv run
  let stop ← Cost.call ((bvSelect bv (run + 1)).map (· + 1))
  return { rnk := run, c := c, start := start, stop := stop }

/-- computeBothRunData (rle_string.hpp:974-978), see `computeBothRunData` -/
def computeBothRunDataW (s : RLEString) (q qStart : Nat) : Cost (RunData × RunData) := do
  let sym ← s.computeSymbolRunDataW q
  let len ← Cost.free (csub sym.stop sym.start)
  return ({ rnk := q, c := sym.c, start := qStart, stop := qStart + len }, sym)

/-- the `while (run.end <= t_i)` loop of rankSoftBothRun (rle_string.hpp:962-964), see `advance` -/
def advanceW (s : RLEString) (i : Nat) : Nat → RunData × RunData → Cost (RunData × RunData)
  | 0, _ => Cost.free none
  | fuel + 1, p =>
    if p.1.stop ≤ i then do
      let q ← s.computeBothRunDataW (p.1.rnk + 1) p.1.stop
      advanceW s i fuel q
    else Cost.ret p

/-- rankSoftBothRun (rle_string.hpp:958-969), see `rankSoftBothRun` -/
def rankSoftBothRunW (s : RLEString) (i : Nat) : Cost (RunData × RunData) := do
  let block ← Cost.call (bvRank s.runs i)
  let start ← afterSelectW s.runs block
  let p ← s.computeBothRunDataW (block * s.b) start
  let p ← advanceW s i (s.r + 1) p
  Cost.free (assertC (decide (p.1.start ≤ i ∧ i < p.1.stop)))
  Cost.free (assertC (decide (p.1.rnk < s.r)))
  return p

/-- rank with report (rle_string.hpp:784-810), see `rankReport` -/
def rankReportW (s : RLEString) (i c : Nat) : Cost (Nat × Nat × Bool) := do
  Cost.free (assertC (decide (i ≤ s.size)))
  let bv ← Cost.free (s.perSym[c]?)
  if bv.length = 0 then return (0, 0, false)
  else if i = s.size then
    let rr ← Cost.call (bvRank bv bv.length)
    return (bv.length, rr, false)
  else
    let (run, sym) ← s.rankSoftBothRunW i
    if run.c = c then
      let off ← Cost.free (csub i run.start)
      return (sym.start + off, sym.rnk + 1, true)
    else
      let symRnk ← Cost.call (wtRank s.runHeads run.rnk c)
      let symStart ← afterSelectW bv symRnk
      return (symStart, symRnk, false)

end RLEString

/-- constructLF (r_index.h:156-181) with lf (lf.h:25-44), see `RIndex.lf` -/
def RIndex.lfW (I : RIndex) (range : Range) (c : Nat) : Cost RangeLF := do
  let last ← Cost.free (csub range.stop 1)
  let s ← I.bwtRle.rankReportW range.start c
  let e ← I.bwtRle.rankReportW last c
  let smaller ← Cost.free (I.alphabet.C[c]?)
  return { start := { value := s.1 + smaller, rank := s.2.1, cover := s.2.2 },
           stop := { value := e.1 + smaller + (if e.2.2 then 1 else 0), rank := e.2.1, cover := e.2.2 } }

/-- std::upper_bound over the positions `first, .., first + len - 1` of a sequence that is read with `get` (bits/stl_algo.h, `__upper_bound`):
    halve the range, compare with the element in the middle, keep the half with the answer. One read per comparison. -/
def binarySearchW (get : Nat → Option Nat) (v : Nat) : Nat → Nat → Nat → Cost Nat
  | 0, first, len => if len = 0 then Cost.ret first else Cost.free none
  | fuel + 1, first, len =>
    if len = 0 then Cost.ret first
    else do
      let x ← Cost.call (get (first + len / 2))
      if v < x then binarySearchW get v fuel first (len / 2)
      else binarySearchW get v fuel (first + len / 2 + 1) (len - len / 2 - 1)

/-- computeUpperBound (psi.h:478-488), see `computeUpperBound`: there the contract of std::upper_bound, here its search -/
def computeUpperBoundW (E : EncVector) (v : Nat) : Cost Nat := do
  let m ← Cost.free (nSamples E)
  binarySearchW E.sample v m 0 m

namespace RunOps

/-- nextStart (psi.h:514-532), see `nextStart` -/
def nextStartW (E : EncVector) (n : Nat) (st : RunOps) (runEnd : Nat) : Cost (Nat × RunOps) := do
  if st.left ≠ 0 then
    let (d, p) ← Cost.call (eliasDecode E.z st.ptr)
    return (runEnd + d, { st with soft := st.soft + 1, left := st.left - 1, ptr := p })
  else
    let m ← Cost.free (nSamples E)
    if st.idx < m then
      let rest ← Cost.free (csub E.size (st.idx * E.dens))
      let left ← Cost.free (csub (min E.dens rest / 2) 1)
      let v ← Cost.call (E.sp[2 * st.idx]?)
      return (v, { st with soft := st.idx * E.dens / 2, left := left, idx := st.idx + 1 })
    else return (n, { st with soft := E.size / 2 })

/-- nextEnd (psi.h:534-536), see `nextEnd` -/
def nextEndW (E : EncVector) (n : Nat) (st : RunOps) (runStart : Nat) : Cost (Nat × RunOps) := do
  if runStart ≠ n then
    let (d, p) ← Cost.call (eliasDecode E.z st.ptr)
    return (runStart + d, { st with ptr := p })
  else return (n, st)

end RunOps

namespace PsiCoreRLE

/-- the loop of rank with report (psi.h:188-192), see `rankReportLoop` -/
def rankReportLoopW (E : EncVector) (n v : Nat) : Nat → RunOps → Nat → Nat → Nat → Cost (Nat × Nat × Nat × RunOps)
  | 0, _, _, _, _ => Cost.free none
  | f + 1, st, s, e, rank => do
    if e ≤ v then
      let d ← Cost.free (csub e s)
      let (s', st) ← RunOps.nextStartW E n st e
      let (e', st) ← RunOps.nextEndW E n st s'
      rankReportLoopW E n v f st s' e' (rank + d)
    else return (rank, s, e, st)

/-- rank(c, v, report) (psi.h:171-200), see `rankReport` -/
def rankReportW (P : PsiCoreRLE) (c v : Nat) : Cost (Nat × Nat × Nat × Nat) := do
  Cost.free (assertC (decide (v ≤ P.n)))
  let (E, ranks) ← Cost.free (P.parts[c]?)
  let w ← Cost.free (clampLast P.n v)
  let ub ← computeUpperBoundW E w
  let idx := if ub ≠ 0 then ub - 1 else 0
  let rank ← Cost.call (sampleRank ranks idx)
  let st ← Cost.call (RunOps.init E idx)
  let (s, st) ← RunOps.nextStartW E P.n st 0
  let (e, st) ← RunOps.nextEndW E P.n st s
  let (rank, s, e, st) ← rankReportLoopW E P.n w (E.size + 1) st s e rank
  return ((if s < v then rank + (v - s) else rank), s, e, st.soft)

end PsiCoreRLE

namespace PsiNav

/-- psi_rank of constructLF (r_csa.h:166-174), see `psiRank` -/
def psiRankW (N : PsiNav) (c v : Nat) : Cost DataRunLF := do
  let (rank, s, e, k) ← N.psi.rankReportW c v
  return { value := rank, rstart := s, rstop := e, rank := k }

/-- constructLF (r_csa.h:160-185) with lf (lf.h:25-44), see `lf` -/
def lfW (N : PsiNav) (range : Range) (c : Nat) : Cost RangeRunLF := do
  let s ← N.psiRankW c range.start
  let e ← N.psiRankW c range.stop
  let smaller ← Cost.free (N.alphabet.C[c]?)
  return { start := { s with value := s.value + smaller }, stop := { e with value := e.value + smaller } }

end PsiNav

namespace Functors
variable {ρ ν δ : Type}

/-- loop of Count (index_base.h:271-274), see `countLoop` -/
def countLoopW (F : Functors ρ ν δ) (lf : ρ → Nat → Cost ν) : List Nat → ρ → Cost ρ
  | [], range => Cost.ret range
  | ch :: rest, range =>
    if F.isEmpty range then Cost.ret range
    else do
      let next ← lf range (F.getSymbol ch)
      countLoopW F lf rest (F.toRange next)

/-- Count (index_base.h:256-278), see `count` -/
def countW (F : Functors ρ ν δ) (lf : ρ → Nat → Cost ν) (P : List Nat) : Cost (Nat × Nat) := do
  let r ← F.countLoopW lf P.reverse (F.fullRange F.bwtSize)
  return F.bounds r

end Functors

/-- Count of every index, with the work it does -/
def countWork (t : IndexType) (T sa : List Nat) (s : Nat) : Option (List Nat → Cost (Nat × Nat)) :=
  match t with
  | .rIndex => (RIndex.build T sa).map (fun I => I.functors.countW I.lfW)
  | .srIndex => (SrIndex.build T sa s).map (fun I => I.functors.countW I.base.lfW)
  | .srIndexValidMark => (SrIndexValid.build T sa s).map (fun I => I.functorsMark.countW I.sr.base.lfW)
  | .srIndexValidArea => (SrIndexValid.build T sa s).map (fun I => I.functorsArea.countW I.sr.base.lfW)
  | .rcsaWithBWTRun => (RCSABwt.build T sa).map (fun I => (RCSABwt.functors I).countW I.lfW)
  | .rcsaWithPsiRun => (RCSAPsi.build T sa).map (fun I => (RCSAPsi.functors I).countW I.lfW)
  | .srCSA => (SrCSA.build T sa s).map (fun I => (I.functorsWith I.posOps (I.phiForRange I.posOps)).countW I.lfW)
  | .srCSASlim => (SrCSA.buildSlim T sa s).map (fun I => (I.functorsWith I.slimOps (I.phiForRange I.slimOps)).countW I.lfW)
  | .srCSAValidMark => (SrCSAValid.build T sa s).map (fun I => (I.functorsWith I.csa.posOps I.phiMark).countW I.csa.lfW)
  | .srCSAValidArea => (SrCSAValid.build T sa s).map (fun I => (I.functorsWith I.csa.posOps I.phiArea).countW I.csa.lfW)
  | .srCSASlimValidMark => (SrCSAValid.buildSlim T sa s).map (fun I => (I.functorsWith I.csa.slimOps I.phiMark).countW I.csa.lfW)
  | .srCSASlimValidArea => (SrCSAValid.buildSlim T sa s).map (fun I => (I.functorsWith I.csa.slimOps I.phiArea).countW I.csa.lfW)
  | .srCSAWithPsiRun => (SrCSA.buildPsi T sa s).map (fun I => (I.functorsWith I.slimOps (I.phiForRange I.slimOps)).countW I.lfW)
  | .psiValidMark => (SrCSAValid.buildPsi T sa s).map (fun I => (I.functorsWith I.csa.slimOps I.phiMark).countW I.csa.lfW)
  | .psiValidArea => (SrCSAValid.buildPsi T sa s).map (fun I => (I.functorsWith I.csa.slimOps I.phiArea).countW I.csa.lfW)

/-- the indexes that search with the run-length string of the BWT; the others search with the runs of psi -/
def IndexType.withRleString : IndexType → Bool
  | .rIndex | .srIndex | .srIndexValidMark | .srIndexValidArea => true
  | _ => false

end Sri
