import Verif.Model.Construct
/-! # sampling.h and construct.h: sub-sampling of samples and validity of the kept marks -/
namespace Sri
set_option autoImplicit false

/-- the loop of computeSampling (sampling.h:34-48) with its final push: `last` is `last_sampled_value`, the list holds the indices
    from `curr_idx` on. Reading a value out of range is a fault. -/
def samplingLoop (s : Nat) (values req : List Nat) : Nat → Nat → Nat → List Nat → Option (List Nat)
  | _, prevIdx, _, [] => some [prevIdx]
  | last, prevIdx, prev, currIdx :: rest => do
    let curr ← values[currIdx]?
    if s < (if curr < last then last - curr else curr - last) ∨ prevIdx ∈ req then do
      let l ← samplingLoop s values req prev currIdx curr rest
      return prevIdx :: l
    else samplingLoop s values req last currIdx curr rest

/-- computeSampling (sampling.h:15-50) -/
def computeSampling (s : Nat) (idxs values req : List Nat) : Option (List Nat) :=
  match idxs with
  | [] => some []
  | f :: rest => do
    let last ← values[f]?
    match rest with
    | [] => return [f]
    | p :: rest => do
      let prev ← values[p]?
      let l ← samplingLoop s values req last p prev rest
      return f :: l

/-- computeSortedSampling (sampling.h:52-69); the same sort is inlined at sr_index.h:611 -/
def computeSortedSampling (s : Nat) (idxs values req : List Nat) : Option (List Nat) := do
  let l ← computeSampling s idxs values req
  return sortBy (fun i => i) l

/-- `do { next_mark = get_next_mark(); } while (next_mark != next_submark)` (construct.h:273-275): the marks left. Running past
    the last mark is a fault. -/
def skipMarks (target : Nat) : List Nat → Option (List Nat)
  | [] => none
  | m :: rest => if m ≠ target then skipMarks target rest else some rest

/-- the loop of computeSubmarksValidity (construct.h:266-279) over the remaining marks and submarks; the reports
    `(i, submark, next_mark)` in order -/
def submarksLoop : Nat → Nat → List Nat → List Nat → Option (List (Nat × Nat × Nat))
  | _, _, _, [] => some []
  | _, _, [], _ :: _ => none
  | i, submark, nextMark :: marks, nextSubmark :: submarks =>
    if nextMark ≠ nextSubmark then do
      let marks ← skipMarks nextSubmark marks
      let l ← submarksLoop (i + 1) nextSubmark marks submarks
      return (i, submark, nextMark) :: l
    else submarksLoop (i + 1) nextSubmark marks submarks

/-- computeSubmarksValidity (construct.h:258-280) -/
def computeSubmarksValidity (marks submarks : List Nat) : Option (List (Nat × Nat × Nat)) :=
  match marks, submarks with
  | _ :: marks, submark :: submarks => submarksLoop 0 submark marks submarks
  | _, _ => none

end Sri
