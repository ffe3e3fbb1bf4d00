import Verif.Model.CacheSteps
/-! # Construction when some files cannot be written

sdsl::store_to_cache and sri::store_to_cache (io.h:37-54) return whether the file could be opened, and print a warning if not. No caller in
construct.h, construct_base.h, construct_sdsl.h, r_index.h, sr_index.h, r_csa.h, sr_csa.h or sr_csa_psi.h looks at the result. What is stored
through an sdsl::int_vector_buffer is different: its constructor asserts that the file is open. -/
namespace Sri
set_option autoImplicit false

/-- the file of a store -/
def CacheEvent.target : CacheEvent → File
  | .opened f => f
  | .closed f _ => f

/-- the files written through sdsl::int_vector_buffer: the suffix array and the transform (sdsl's construct_sa, construct_bwt), the four files
    of the runs (construct_sdsl.h:63-73), the heads and tails of psi runs (construct.h:122-127), the files sorted by alphabet
    (sr_csa.h:1061-1077, 1112-1117, 1140-1142), and the validity of marks (sr_index.h:717-728, sr_csa.h:1198-1209), but not that of psi runs -/
def FileRef.buffered (r : FileRef) : Bool :=
  match r.1, r.2 with
  | .sa, none | .bwt, none | .first, none | .firstTextPos, none | .last, none | .lastTextPos, none => true
  | .psiFirst, some .ints | .psiLast, some .ints => true
  | .alphaIdx, none | .cumRuns, none | .alphaSubFirst, none | .alphaSubIdx, none | .alphaSubLinks, none => true
  | .validFirstMark, none | .validFirstArea, none | .validLastMark, none | .validLastArea, none => true
  | _, _ => false

/-- a step while the files in `F` cannot be opened for writing: what store_to_cache does not store is skipped, a buffer is a fault -/
def CacheStep.runF (F : File → Bool) (bytes : List Nat) (s : Nat) (st : CacheStep) (P : Process) : Option (List CacheEvent) := do
  let es ← st.run bytes s P
  assertC (st.outputs.flatten.all (fun r => !(r.buffered && F (r.file s))))
  return es.filter (fun e => !F e.target)

/-- the process after such a step: store_to_cache enters a name in file_map only if the file was written (io.h:42-49 and sdsl's) -/
def CacheStep.afterF (F : File → Bool) (s : Nat) (st : CacheStep) (es : List CacheEvent) (P : Process) : Process :=
  { disk := P.disk.applyAll es,
    fileMap := (st.aliases.filter (fun q => !F (q.2.file s))).foldl (fun m q => fun f => if f = q.1.file s then some (q.2.file s) else m f) P.fileMap }

/-- The steps of a construction, where the marks along psi and their bit vector go together: the bit vector is made from the integers in memory,
    not from the file they have been stored in (sr_csa_psi.h:644-654). Elsewhere a step only uses what it reads from files. -/
def units : List CacheStep → List (List CacheStep)
  | [] => []
  | [st] => [[st]]
  | st :: st' :: rest =>
    if st.outputs = [[(.subPsiLast, some .ints)]] then [st, st'] :: units rest else [st] :: units (st' :: rest)

/-- The process after steps that go together, unless it faults or throws, while the files in `F` cannot be written. `M` is what the steps see,
    with all that they have made since the first of them began, `Q` the process with what they could store. -/
def runUnitF (F : File → Bool) (bytes : List Nat) (s : Nat) : List CacheStep → Process → Process → Option Process
  | [], _, Q => some Q
  | st :: rest, M, Q =>
    if st.guards.any (fun r => M.has (r.file s)) then runUnitF F bytes s rest M Q
    else do
      let made ← st.run bytes s M
      let stored ← st.runF F bytes s M
      runUnitF F bytes s rest (st.after s made M) (st.afterF F s stored Q)

/-- the process after the steps of a construction, unless it faults or throws, while the files in `F` cannot be written -/
def runUnitsF (F : File → Bool) (bytes : List Nat) (s : Nat) : List (List CacheStep) → Process → Option Process
  | [], P => some P
  | u :: rest, P => do
    let P' ← runUnitF F bytes s u P P
    runUnitsF F bytes s rest P'

/-- the process after `construct` of an index at a rate, while the files in `F` cannot be written -/
def constructInF (F : File → Bool) (bytes : List Nat) (t : IndexType) (b : BvKind) (s : Nat) (P : Process) : Option Process :=
  runUnitsF F bytes s (units (program t b)) P

/-- a step opens a file with a reader that fails if there is none, and there is none -/
def CacheStep.stops (s : Nat) (st : CacheStep) (P : Process) : Bool :=
  st.inputs.any (fun q => match q with
    | .load _ _ => false
    | .buffer r => (P.disk (P.fileName (r.file s))).isNone)

/-- the first file that a step writes is written through a buffer, which cannot be opened: the assertion in its constructor ends the process, and
    nothing has been stored since the step began -/
def CacheStep.blocked (F : File → Bool) (s : Nat) (st : CacheStep) : Bool :=
  match st.outputs with
  | (r :: _) :: _ => r.buffered && F (r.file s)
  | _ => false

/-- The process after steps that go together, up to one that stops because a file is missing, or because the first file that it writes is a
    buffer that cannot be opened. `none` if they complete, or end in another way: by a fault, or because a buffer cannot be opened for writing
    while others are open (these are then left half written, as after a crash). -/
def haltUnitF (F : File → Bool) (bytes : List Nat) (s : Nat) : List CacheStep → Process → Process → Option Process
  | [], _, _ => none
  | st :: rest, M, Q =>
    if st.guards.any (fun r => M.has (r.file s)) then haltUnitF F bytes s rest M Q
    else if st.stops s M then some Q
    else do
      let made ← st.run bytes s M
      if st.blocked F s then some Q else
      let stored ← st.runF F bytes s M
      haltUnitF F bytes s rest (st.after s made M) (st.afterF F s stored Q)

/-- the same for the steps of a construction -/
def haltUnitsF (F : File → Bool) (bytes : List Nat) (s : Nat) : List (List CacheStep) → Process → Option Process
  | [], _ => none
  | u :: rest, P =>
    match runUnitF F bytes s u P P with
    | some P' => haltUnitsF F bytes s rest P'
    | none => haltUnitF F bytes s u P P

/-- the process that `construct` of an index at a rate leaves if it ends because a file is missing that it opens with sdsl::int_vector_buffer or
    sdsl::int_vector_mapper, or because it cannot open a buffer for writing with which a step begins, while the files in `F` cannot be written -/
def haltInF (F : File → Bool) (bytes : List Nat) (t : IndexType) (b : BvKind) (s : Nat) (P : Process) : Option Process :=
  haltUnitsF F bytes s (units (program t b)) P

/-- The files whose loss may stay unnoticed. store_to_cache writes them, and a later step reads them with load_from_cache, whose result it does not
    look at, into an object that can be used even if nothing was read: the indices of run heads and tails sorted by text position
    (sr_csa.h:887, 1174, sr_index.h:583, sr_csa_psi.h:546), psi (construct.h:197, sr_csa.h:992, 1054, sr_csa_psi.h:709), the indices of the
    samples kept at run heads (sr_csa.h:973, 1101, 1158), the links of their marks (sr_csa.h:1138), the marks along psi (sr_csa_psi.h:664, 773) and
    the areas along psi (sr_csa_psi.h:823). More files are read in this way: indices and marks of sub-samplings (sr_index.h:625, 698,
    sr_csa.h:1179, sr_csa_psi.h:598) and the samples at run heads (sr_csa.h:1110). The theorem shows that the same construction fails if one of
    them is lost and was needed. -/
def looseFiles : List FileRef :=
  [(.firstSorted, none), (.lastSorted, none), (.psi, some .psi), (.psiFirstAsc, none), (.subFirstIdx, none), (.subLastToFirst, none),
   (.subPsiLast, some .ints), (.validPsiArea, some .ints)]

/-- the files that a step reads unchecked, whether the same construction notices their loss or not, without the samples at run heads -/
def uncheckedFiles : List FileRef :=
  looseFiles ++ [(.subLastIdx, none), (.subFirstByLast, none), (.subLastByFirst, none), (.subPsiIdx, some .ints)]

/-- none of the loose files is among the ones that cannot be written, at any rate -/
def Checked (F : File → Bool) : Prop := ∀ r ∈ looseFiles, ∀ s, F (r.file s) = false

/-- none of the files that are read unchecked is among the ones that cannot be written, at any rate -/
def AllChecked (F : File → Bool) : Prop := ∀ r ∈ uncheckedFiles, ∀ s, F (r.file s) = false

end Sri
