import Verif.Model.Items
import Verif.Model.Text
/-! # Construction as a program over the files of a cache

construct of every index class is a sequence of guarded steps: if a file is in the cache the step is skipped, otherwise it reads some files
and writes others (construct_sdsl.h:126-160, r_index.h:297-320, sr_index.h:486-571, r_csa.h:350-378, 623-676, sr_csa.h:753-874, 1021-1050,
sr_csa_psi.h:473-531, 733-757, 804-830). The base items are those of construct_sdsl.h, not of Big-BWT. The types of the items are the
default ones, except for the bit vector of the samples. -/
namespace Sri
set_option autoImplicit false

/-- the files of a cache, by what they hold; `sub...` and `valid...` files and the sampled alphabet-sorted ones exist once per rate -/
inductive FileName where
  | text | sa | bwt | alphabet | bwtRle | first | firstTextPos | last | lastTextPos
  | firstSorted | firstToLast | lastSorted | lastToFirst | psi | alphaIdx | cumRuns
  | psiFirst | psiLast | psiLink | psiFirstAsc | psiCum
  | subLastIdx | subLast | subFirstByLast | subFirstToLast | validFirstMark | validFirstArea
  | subFirstIdx | subFirst | subLastByFirst | subLastToFirst | subFirstPos | alphaSubFirst | alphaSubIdx | alphaSubLinks
  | validLastMark | validLastArea
  | subPsiIdx | subPsiFirst | subPsiLast | subPsiLink | validPsiMark | validPsiArea
deriving DecidableEq, Repr

namespace FileName

/-- whether the key carries the rate, and the rest of it (construct_base.h:19-54, config.h:43-92, construct.h:57-59, sdsl's KEY_TEXT, KEY_SA,
    KEY_BWT, KEY_PSI) -/
def key : FileName → Bool × Key
  | text => (false, "text".toList)
  | sa => (false, "sa".toList)
  | bwt => (false, "bwt".toList)
  | alphabet => (false, "alphabet".toList)
  | bwtRle => (false, "bwt_rle".toList)
  | first => (false, "bwt_run_first".toList)
  | firstTextPos => (false, "bwt_run_first_text_pos".toList)
  | last => (false, "bwt_run_last".toList)
  | lastTextPos => (false, "bwt_run_last_text_pos".toList)
  | firstSorted => (false, "bwt_run_first_text_pos_sorted_idx".toList)
  | firstToLast => (false, "bwt_run_first_text_pos_sorted_to_last_idx".toList)
  | lastSorted => (false, "bwt_run_last_text_pos_sorted_idx".toList)
  | lastToFirst => (false, "bwt_run_last_text_pos_sorted_to_first_idx".toList)
  | psi => (false, "psi".toList)
  | alphaIdx => (false, "bwt_run_first_idx".toList ++ "_sorted_alphabet".toList)
  | cumRuns => (false, "bwt_run_cumulative_count".toList)
  | psiFirst => (false, "psi_run_first_text_pos".toList)
  | psiLast => (false, "psi_run_last_text_pos".toList)
  | psiLink => (false, "psi_run_last_text_pos_asc_link".toList)
  | psiFirstAsc => (false, "psi_run_first_text_pos_asc_idx".toList)
  | psiCum => (false, "psi_run_cumulative_count".toList)
  | subLastIdx => (true, "bwt_run_last_idx".toList)
  | subLast => (true, "bwt_run_last_text_pos".toList)
  | subFirstByLast => (true, "bwt_run_first_text_pos_by_last".toList)
  | subFirstToLast => (true, "bwt_run_first_text_pos_sorted_to_last_idx".toList)
  | validFirstMark => (true, "bwt_run_first_text_pos_sorted_valid_mark".toList)
  | validFirstArea => (true, "bwt_run_first_text_pos_sorted_valid_area".toList)
  | subFirstIdx => (true, "bwt_run_first_idx".toList)
  | subFirst => (true, "bwt_run_first_text_pos".toList)
  | subLastByFirst => (true, "bwt_run_last_text_pos_by_first".toList)
  | subLastToFirst => (true, "bwt_run_last_text_pos_sorted_to_first_idx".toList)
  | subFirstPos => (true, "bwt_run_first".toList)
  | alphaSubFirst => (true, "bwt_run_first_text_pos".toList ++ "_sorted_alphabet".toList)
  | alphaSubIdx => (true, "bwt_run_first_idx".toList ++ "_sorted_alphabet".toList)
  | alphaSubLinks => (true, "bwt_run_last_text_pos_sorted_to_first_idx".toList ++ "_sorted_alphabet".toList)
  | validLastMark => (true, "bwt_run_last_text_pos_sorted_valid_mark".toList)
  | validLastArea => (true, "bwt_run_last_text_pos_sorted_valid_area".toList)
  | subPsiIdx => (true, "psi_run_first_idx".toList)
  | subPsiFirst => (true, "psi_run_first_text_pos".toList)
  | subPsiLast => (true, "psi_run_last_text_pos".toList)
  | subPsiLink => (true, "psi_run_last_text_pos_asc_link".toList)
  | validPsiMark => (true, "psi_run_last_text_pos_asc_valid_mark".toList)
  | validPsiArea => (true, "psi_run_last_text_pos_asc_valid_area".toList)

end FileName

/-- a name that cache_file_name resolves: the key, and the type whose hash is appended to it, if any -/
abbrev File := Key × Option ItemType

/-- a file of a cache before its rate is known -/
abbrev FileRef := FileName × Option ItemType

def FileRef.file (s : Nat) (r : FileRef) : File := (if r.1.key.1 then ratePrefix s ++ r.1.key.2 else r.1.key.2, r.2)

/-- the directory of the cache: a file is absent, complete, or opened for writing and not yet closed (`some none`) -/
abbrev Disk := File → Option (Option Item)

/-- what a store does to the directory -/
inductive CacheEvent where
  | opened (f : File)
  | closed (f : File) (x : Item)

def Disk.apply (D : Disk) : CacheEvent → Disk
  | .opened f => fun g => if g = f then some none else D g
  | .closed f x => fun g => if g = f then some (some x) else D g

def Disk.applyAll (D : Disk) (es : List CacheEvent) : Disk := es.foldl Disk.apply D

/-- a process at work on a cache: the directory, and the member file_map of its sdsl::cache_config, which maps a name to a file. It is
    not stored in the cache. A name it does not hold stands for the file of that name (sdsl's cache_file_name). -/
structure Process where
  disk : Disk
  fileMap : File → Option File

namespace Process

/-- a process with a new configuration -/
def fresh (D : Disk) : Process := { disk := D, fileMap := fun _ => none }

/-- sdsl::cache_file_name -/
def fileName (P : Process) (f : File) : File := (P.fileMap f).getD f

/-- sdsl::cache_file_exists: complete or not -/
def has (P : Process) (f : File) : Bool := (P.disk (P.fileName f)).isSome

/-- the cache as the load of an index sees it (index_base.h:94-123): a file that is absent or not complete is an exception or worse -/
def cache (P : Process) : Cache := fun k h => (P.disk (P.fileName (k, h))).bind id

end Process

/-- how a step reads a file: sdsl::load_from_cache into a new object of a type, or a reader that fails if there is no file,
    sdsl::int_vector_buffer or sdsl::int_vector_mapper -/
inductive CacheRead where
  | load (r : FileRef) (ty : ItemType)
  | buffer (r : FileRef)

def CacheRead.ref : CacheRead → FileRef
  | .load r _ => r
  | .buffer r => r

/-- a new object of a type. The uses that the steps make of an alphabet or of a string without content are out of range, so these are
    counted as faults from the start. -/
def Item.new : ItemType → Option Item
  | .ints => some (.ints [])
  | .psi => some (.psi { n := 0, first := 0, parts := [] })
  | _ => none

/-- load_from_cache only warns when there is no file, and no step looks at its result; reading a file that is not complete, and a buffer
    on no file, are faults -/
def CacheRead.run (s : Nat) (P : Process) : CacheRead → Option Item
  | .load r ty =>
    (match P.disk (P.fileName (r.file s)) with
     | none => Item.new ty
     | some c => c)
  | .buffer r => (P.disk (P.fileName (r.file s))).bind id

/-- a step of a construction: it is skipped if one of the files `guards` exists. `outputs` are written in the order given; the files of a
    group are open together (sdsl::int_vector_buffer) and closed in order. `aliases`: entries of file_map for another name than that of
    the file. `compute` gets the bytes of the input file, the rate and what was read. A fault inside a step is placed before its first
    store. -/
structure CacheStep where
  guards : List FileRef
  inputs : List CacheRead
  outputs : List (List FileRef)
  aliases : List (FileRef × FileRef) := []
  compute : List Nat → Nat → List Item → Option (List Item)

/-- the stores of a step -/
def storeEvents (s : Nat) : List (List FileRef) → List Item → List CacheEvent
  | [], _ => []
  | g :: gs, xs =>
    g.map (fun r => .opened (r.file s)) ++ (g.zip (xs.take g.length)).map (fun q => .closed (q.1.file s) q.2)
      ++ storeEvents s gs (xs.drop g.length)

def CacheStep.run (bytes : List Nat) (s : Nat) (st : CacheStep) (P : Process) : Option (List CacheEvent) := do
  let xs ← st.inputs.mapM (CacheRead.run s P)
  let ys ← st.compute bytes s xs
  return storeEvents s st.outputs ys

/-- the process after a step with the stores `es` -/
def CacheStep.after (s : Nat) (st : CacheStep) (es : List CacheEvent) (P : Process) : Process :=
  { disk := P.disk.applyAll es,
    fileMap := st.aliases.foldl (fun m q => fun f => if f = q.1.file s then some (q.2.file s) else m f) P.fileMap }

/-- run a construction: its stores, and the process at the end, unless it faults or throws -/
def runSteps (bytes : List Nat) (s : Nat) : List CacheStep → Process → List CacheEvent × Option Process
  | [], P => ([], some P)
  | st :: rest, P =>
    if st.guards.any (fun r => P.has (r.file s)) then runSteps bytes s rest P
    else
      match st.run bytes s P with
      | none => ([], none)
      | some es =>
        let q := runSteps bytes s rest (st.after s es P)
        (es ++ q.1, q.2)

/-! ## The steps -/
namespace Steps

/-- constructText (construct_sdsl.h:20-41, 129-132) -/
def text : CacheStep where
  guards := [(.text, none)]
  inputs := []
  outputs := [[(.text, none)]]
  compute := fun bytes _ _ =>
    match constructText bytes with
    | .stored T => some [.ints T]
    | .innerZero => none

/-- sdsl::construct_sa (construct_sdsl.h:135-138), which maps the file of the text into memory, and throws if there is none -/
def sa : CacheStep where
  guards := [(.sa, none)]
  inputs := [.buffer (.text, none)]
  outputs := [[(.sa, none)]]
  compute := fun _ _ xs =>
    match xs with
    | [.ints T] => some [.ints (suffixArray T)]
    | _ => none

/-- sdsl::construct_bwt (construct_sdsl.h:141-144), which maps the text as construct_sa does -/
def bwt : CacheStep where
  guards := [(.bwt, none)]
  inputs := [.buffer (.text, none), .buffer (.sa, none)]
  outputs := [[(.bwt, none)]]
  compute := fun _ _ xs =>
    match xs with
    | [.ints T, .ints sa] => some [.ints (constructBWT T sa)]
    | _ => none

/-- constructBWTRuns (construct_sdsl.h:43-123, 147-150): the four buffers are open together -/
def bwtRuns : CacheStep where
  guards := [(.first, none)]
  inputs := [.load (.bwt, none) .ints, .load (.sa, none) .ints]
  outputs := [[(.first, none), (.firstTextPos, none), (.last, none), (.lastTextPos, none)]]
  compute := fun _ _ xs =>
    match xs with
    | [.ints bwt, .ints sa] => (constructBWTRuns bwt sa).map (fun r => [.ints r.first, .ints r.firstTextPos, .ints r.last, .ints r.lastTextPos])
    | _ => none

/-- constructAlphabet (construct_base.h:56-67, construct_sdsl.h:153-156) -/
def alphabet : CacheStep where
  guards := [(.alphabet, none)]
  inputs := [.buffer (.bwt, none)]
  outputs := [[(.alphabet, none)]]
  compute := fun _ _ xs =>
    match xs with
    | [.ints bwt] => some [.alphabet (Alphabet.build bwt)]
    | _ => none

/-- constructBWTRLE (construct_base.h:69-91, construct_sdsl.h:159-162) -/
def bwtRle : CacheStep where
  guards := [(.bwtRle, none)]
  inputs := [.buffer (.bwt, none), .load (.alphabet, none) .alphabet]
  outputs := [[(.bwtRle, none)]]
  compute := fun _ _ xs =>
    match xs with
    | [.ints bwt, .alphabet a] => (RLEString.build (bwt.map a.char2comp) 2).map (fun r => [.bwtRle r])
    | _ => none

/-- constructIndexBaseItems (construct_sdsl.h:126-163) -/
def base : List CacheStep := [text, sa, bwt, bwtRuns, alphabet, bwtRle]

/-- constructMarkToSampleLinksForPhiBackward (construct.h:242-257, r_index.h:301-307) -/
def linksBackward : CacheStep where
  guards := [(.firstToLast, none)]
  inputs := [.load (.firstTextPos, none) .ints]
  outputs := [[(.firstSorted, none)], [(.firstToLast, none)]]
  compute := fun _ _ xs =>
    match xs with
    | [.ints marks] => some [.ints (linksPhiBackward marks).1, .ints (linksPhiBackward marks).2]
    | _ => none

/-- constructBitVectorFromIntVector (construct.h:292-332): the bit vector of the integers in file `src` under the key `out`, then its rank
    and select supports; the size is what `size` computes from the number of integers in the file `len` -/
def bitVector (out : FileName) (b : BvKind) (src len : FileRef) : CacheStep where
  guards := [(out, some b.ty)]
  inputs := [.buffer len, .buffer src]
  outputs := [[(out, some b.ty)], [(out, some b.rankTy)], [(out, some b.selectTy)]]
  compute := fun _ _ xs =>
    match xs with
    | [.ints l, .ints v] =>
      (bitVectorFromInts v l.length false).map (fun bv =>
        match b with
        | .sd => [.sdVector bv, .sdRank none, .sdSelect none]
        | .plain => [.bitVector bv, .bitRank1 bv none, .bitSelect1 bv none])
    | _ => none

/-- the bit vector of the valid marks, with its rank support for zeros (sr_index.h:558-568, sr_csa.h:851-860, sr_csa_psi.h:749-756). The
    select support for zeros, which is written last and which nothing reads, is left out. -/
def validBits (out : FileName) (src len : FileRef) : CacheStep where
  guards := [(out, some .bitVector)]
  inputs := [.buffer len, .buffer src]
  outputs := [[(out, some .bitVector)], [(out, some .bitRank0)]]
  compute := fun _ _ xs =>
    match xs with
    | [.ints l, .ints v] => (bitVectorFromInts v l.length true).map (fun bv => [.bitVector bv, .bitRank0 bv none])
    | _ => none

/-- constructRIndex (r_index.h:297-320) -/
def rIndex : List CacheStep := base ++ [linksBackward, bitVector .firstTextPos .sd (.firstTextPos, none) (.bwt, none)]

/-- constructSortedIndices (construct.h:334-345) -/
def sorted (out : FileName) (src : FileRef) : CacheStep where
  guards := [(out, none)]
  inputs := [.load src .ints]
  outputs := [[(out, none)]]
  compute := fun _ _ xs =>
    match xs with
    | [.ints v] => some [.ints (sortIndices v)]
    | _ => none

/-- constructSubsamplingForwardSamplesForPhiBackward (sr_index.h:573-621) -/
def samplesBackward : CacheStep where
  guards := [(.subLastIdx, none)]
  inputs := [.load (.lastTextPos, none) .ints, .load (.lastSorted, none) .ints, .buffer (.firstToLast, none)]
  outputs := [[(.subLastIdx, none)], [(.subLast, none)]]
  compute := fun _ s xs =>
    match xs with
    | [.ints samples, .ints sorted, .ints links] => do
      let idx ← SrIndex.subsampleIdx s samples sorted links
      let subs ← idx.mapM (fun i => samples[i]?)
      return [.ints idx, .ints subs]
    | _ => none

/-- constructSubsamplingForwardMarksForPhiBackward (sr_index.h:623-685); the number of runs is the size of the file of their heads -/
def marksBackward : CacheStep where
  guards := [(.subFirstToLast, none)]
  inputs := [.load (.subLastIdx, none) .ints, .buffer (.first, none), .load (.firstTextPos, none) .ints]
  outputs := [[(.subFirstByLast, none)], [(.subFirstToLast, none)]]
  compute := fun _ _ xs =>
    match xs with
    | [.ints idx, .ints first, .ints marks] => do
      let sub ← idx.mapM (fun i => do
        let k ← cmod (i + 1) first.length
        marks[k]?)
      return [.ints sub, .ints (sortIndices sub)]
    | _ => none

/-- constructSRI (sr_index.h:486-542) -/
def srIndex (b : BvKind) : List CacheStep :=
  rIndex ++ [sorted .lastSorted (.lastTextPos, none), samplesBackward, bitVector .subLastIdx b (.subLastIdx, none) (.last, none),
    marksBackward, bitVector .subFirstByLast .sd (.subFirstByLast, none) (.bwt, none)]

/-- constructSubsamplingForwardMarksValidity (sr_index.h:687-742) -/
def validityBackward : CacheStep where
  guards := [(.validFirstMark, none)]
  inputs := [.load (.firstTextPos, none) .ints, .load (.firstSorted, none) .ints, .load (.subFirstByLast, none) .ints]
  outputs := [[(.validFirstMark, none), (.validFirstArea, none)]]
  compute := fun _ _ xs =>
    match xs with
    | [.ints marks, .ints idx, .ints sub] => do
      let ms ← idx.mapM (fun i => marks[i]?)
      let v ← computeSubmarksValidity ms (sortBy (fun x => x) sub)
      let areas ← v.mapM (fun q => csub q.2.2 q.2.1)
      return [.ints (v.map (·.1)), .ints areas]
    | _ => none

/-- constructSRIValidMark (sr_index.h:546-571) -/
def srIndexValid (b : BvKind) : List CacheStep :=
  srIndex b ++ [validityBackward, validBits .validFirstMark (.validFirstMark, none) (.subLast, none)]

/-- constructPsi (construct.h:69-92, r_csa.h:353-356): the number of symbols is the last entry of `C` (psi.h:26-27) -/
def psi : CacheStep where
  guards := [(.psi, none)]
  inputs := [.load (.alphabet, none) .alphabet, .load (.bwtRle, none) .bwtRle]
  outputs := [[(.psi, none)], [(.psi, some .psi)]]
  compute := fun _ _ xs =>
    match xs with
    | [.alphabet a, .bwtRle r] => do
      let n ← a.C[a.C.length - 1]?
      let p ← constructPsiItems { n := n, alphabet := a, bwtRle := r, runs := ⟨[], [], [], []⟩ }
      return [.ints p.psi, .psi p.core]
    | _ => none

/-- constructMarkToSampleLinksForPhiForwardWithBWTRuns (construct.h:168-221) -/
def linksForward : CacheStep where
  guards := [(.lastToFirst, none)]
  inputs := [.load (.lastTextPos, none) .ints, .load (.last, none) .ints, .load (.bwtRle, none) .bwtRle, .load (.alphabet, none) .alphabet,
    .load (.psi, some .psi) .psi, .load (.first, none) .ints]
  outputs := [[(.lastSorted, none)], [(.lastToFirst, none)]]
  compute := fun _ _ xs =>
    match xs with
    | [.ints lastTextPos, .ints last, .bwtRle r, .alphabet a, .psi core, .ints first] =>
      (linksPhiForwardBWT { n := 0, alphabet := a, bwtRle := r, runs := ⟨first, [], last, lastTextPos⟩ } { psi := [], core := core }).map
        (fun q => [.ints q.1, .ints q.2])
    | _ => none

/-- constructRCSAWithBWTRuns (r_csa.h:350-378) -/
def rcsaWithBWTRun : List CacheStep := base ++ [psi, linksForward, bitVector .lastTextPos .sd (.lastTextPos, none) (.bwt, none)]

/-- constructSubsamplingBackwardSamplesForPhiForwardWithBWTRuns (sr_csa.h:876-918) -/
def samplesForward : CacheStep where
  guards := [(.subFirstIdx, none)]
  inputs := [.load (.firstTextPos, none) .ints, .load (.firstSorted, none) .ints, .buffer (.lastToFirst, none)]
  outputs := [[(.subFirstIdx, none)], [(.subFirst, none)]]
  compute := fun _ s xs =>
    match xs with
    | [.ints samples, .ints sorted, .ints links] => do
      let idx ← SrIndex.subsampleIdx s samples sorted.reverse links
      let subs ← idx.mapM (fun i => samples[i]?)
      return [.ints idx, .ints subs]
    | _ => none

/-- constructSubsamplingBackwardMarksForPhiForwardWithBWTRuns (sr_csa.h:923-1019) -/
def marksForward : CacheStep where
  guards := [(.subLastToFirst, none)]
  inputs := [.load (.subFirstIdx, none) .ints, .load (.bwtRle, none) .bwtRle, .load (.alphabet, none) .alphabet, .load (.psi, some .psi) .psi,
    .load (.last, none) .ints, .load (.first, none) .ints, .load (.lastTextPos, none) .ints]
  outputs := [[(.subLastByFirst, none)], [(.subLastToFirst, none)]]
  compute := fun _ _ xs =>
    match xs with
    | [.ints idx, .bwtRle r, .alphabet a, .psi core, .ints last, .ints first, .ints lastTextPos] => do
      let sub ← SrCSA.submarksBWT { n := 0, alphabet := a, bwtRle := r, runs := ⟨first, [], last, lastTextPos⟩ } { psi := [], core := core } idx
      return [.ints sub, .ints (sortIndices sub)]
    | _ => none

/-- constructSrCSACommonsWithBWTRuns (sr_csa.h:1021-1050) after constructRCSAWithBWTRuns -/
def srCSACommons : List CacheStep :=
  rcsaWithBWTRun ++ [sorted .firstSorted (.firstTextPos, none), samplesForward, marksForward,
    bitVector .subLastByFirst .sd (.subLastByFirst, none) (.bwt, none)]

/-- constructSubsamplingBackwardSamplesPosition (sr_csa.h:1151-1166) -/
def samplesPosition : CacheStep where
  guards := [(.subFirstPos, none)]
  inputs := [.load (.first, none) .ints, .load (.subFirstIdx, none) .ints]
  outputs := [[(.subFirstPos, none)]]
  compute := fun _ _ xs =>
    match xs with
    | [.ints first, .ints idx] => (idx.mapM (fun i => first[i]?)).map (fun pos => [.ints pos])
    | _ => none

/-- construct(SrCSA) (sr_csa.h:796-828) -/
def srCSA (b : BvKind) : List CacheStep :=
  srCSACommons ++ [samplesPosition, bitVector .subFirstPos b (.subFirstPos, none) (.bwt, none)]

/-- constructSamplesSortedByAlphabet (sr_csa.h:1052-1087): two buffers open together -/
def sortedByAlphabet : CacheStep where
  guards := [(.alphaIdx, none)]
  inputs := [.load (.psi, some .psi) .psi, .load (.first, none) .ints]
  outputs := [[(.alphaIdx, none), (.cumRuns, none)]]
  compute := fun _ _ xs =>
    match xs with
    | [.psi core, .ints first] =>
      (SrCSA.sortedByAlphabet core first (List.range core.parts.length) 0).map (fun q => [.ints q.1, .ints q.2])
    | _ => none

/-- constructSubsamplingBackwardSamplesSortedByAlphabet (sr_csa.h:1089-1149): two buffers open together, then a third -/
def samplesByAlphabet : CacheStep where
  guards := [(.alphaSubFirst, none)]
  inputs := [.load (.alphaIdx, none) .ints, .load (.subFirstIdx, none) .ints, .load (.subFirst, none) .ints, .load (.subLastToFirst, none) .ints]
  outputs := [[(.alphaSubFirst, none), (.alphaSubIdx, none)], [(.alphaSubLinks, none)]]
  compute := fun _ _ xs =>
    match xs with
    | [.ints sorted, .ints idx, .ints subs, .ints links] => do
      let idxBv ← bitVectorFromInts idx sorted.length false
      let q ← SrCSA.slimLoop idxBv subs 0 0 (List.replicate idx.length 0) sorted
      let toSorted ← links.mapM (fun i => q.2.2[i]?)
      return [.ints q.1, .ints q.2.1, .ints toSorted]
    | _ => none

/-- construct(SrCSASlim) (sr_csa.h:753-792) -/
def srCSASlim (b : BvKind) : List CacheStep :=
  srCSACommons ++ [sortedByAlphabet, samplesByAlphabet, bitVector .alphaSubIdx b (.alphaSubIdx, none) (.first, none)]

/-- the loop of constructSubsamplingBackwardMarksValidity (sr_csa.h:1168-1219) and constructSubmarksValidity (sr_csa_psi.h:759-802): the
    invalid marks and their areas, both from the greatest to the smallest, stored in reverse -/
def validityInts (marks sub : List Nat) : Option (List (Nat × Nat)) := do
  let l ← computeSubmarksValidity marks.reverse (sortBy (fun x => x) sub).reverse
  l.reverse.mapM (fun (q : Nat × Nat × Nat) => do
    let i ← csub sub.length q.1
    let i ← csub i 1
    let a ← csub q.2.1 q.2.2
    return (i, a))

/-- constructSubsamplingBackwardMarksValidity (sr_csa.h:1168-1219): two buffers open together -/
def validityForward : CacheStep where
  guards := [(.validLastMark, none)]
  inputs := [.load (.lastTextPos, none) .ints, .load (.lastSorted, none) .ints, .load (.subLastByFirst, none) .ints]
  outputs := [[(.validLastMark, none), (.validLastArea, none)]]
  compute := fun _ _ xs =>
    match xs with
    | [.ints marks, .ints idx, .ints sub] => do
      let ms ← idx.mapM (fun i => marks[i]?)
      let q ← validityInts ms sub
      return [.ints (q.map (·.1)), .ints (q.map (·.2))]
    | _ => none

/-- construct(SrCSAValidMark), construct(SrCSAValidArea) after the construction of the index below (sr_csa.h:832-874), whose load is left
    out -/
def srCSAValid : List CacheStep := [validityForward, validBits .validLastMark (.validLastMark, none) (.subFirst, none)]

/-- constructPsiRuns (construct.h:94-138): heads, then tails -/
def psiRuns : CacheStep where
  guards := [(.psiFirst, some .ints)]
  inputs := [.load (.alphabet, none) .alphabet, .load (.bwtRle, none) .bwtRle, .buffer (.first, none), .buffer (.firstTextPos, none),
    .buffer (.last, none), .buffer (.lastTextPos, none)]
  outputs := [[(.psiFirst, some .ints)], [(.psiLast, some .ints)]]
  compute := fun _ _ xs =>
    match xs with
    | [.alphabet a, .bwtRle r, .ints first, .ints firstTextPos, .ints last, .ints lastTextPos] => do
      let heads ← constructPsiRuns { n := 0, alphabet := a, bwtRle := r, runs := ⟨[], [], [], []⟩ } first firstTextPos
      let tails ← constructPsiRuns { n := 0, alphabet := a, bwtRle := r, runs := ⟨[], [], [], []⟩ } last lastTextPos
      return [.ints heads, .ints tails]
    | _ => none

/-- constructMarkToSampleLinksForPhiForwardWithPsiRuns (construct.h:223-240, r_csa.h:659-675) -/
def psiLinks : CacheStep where
  guards := [(.psiLink, some .ints)]
  inputs := [.load (.psiLast, some .ints) .ints]
  outputs := [[(.psiLink, some .ints)]]
  compute := fun _ _ xs =>
    match xs with
    | [.ints tails] => (linksPhiForwardPsi tails).map (fun q => [.ints q.2])
    | _ => none

/-- constructItems(RCSAWithPsiRun) (r_csa.h:623-676) -/
def rcsaWithPsiRun : List CacheStep :=
  base ++ [psi, psiRuns, bitVector .psiLast .sd (.psiLast, some .ints) (.bwt, none), psiLinks]

/-- constructSubsamplingBackwardSamplesForPhiForwardWithPsiRuns (sr_csa_psi.h:533-567): the first store is sdsl::store_to_cache with the hash
    of the type, which enters the file under the name without the hash in file_map; sri::store_to_cache (io.h:37-54) enters the name
    with the hash -/
def samplesPsi : CacheStep where
  guards := [(.subPsiFirst, some .ints)]
  inputs := [.load (.psiFirst, some .ints) .ints, .load (.psiFirstAsc, none) .ints, .buffer (.psiLink, some .ints)]
  outputs := [[(.subPsiIdx, some .ints)], [(.subPsiFirst, some .ints)]]
  aliases := [((.subPsiIdx, none), (.subPsiIdx, some .ints))]
  compute := fun _ s xs =>
    match xs with
    | [.ints heads, .ints sorted, .ints links] => do
      let idx ← SrIndex.subsampleIdx s heads sorted.reverse links
      let subs ← idx.mapM (fun i => heads[i]?)
      return [.ints idx, .ints subs]
    | _ => none

/-- computeSubmarksForPhiForwardWithPsiRuns (sr_csa_psi.h:591-652, 496-501), if neither the bit vector nor the integers exist. The indices of
    the samples are loaded by their name without the hash (sr_csa_psi.h:597). -/
def marksPsi : CacheStep where
  guards := [(.subPsiLast, some .sdVector), (.subPsiLast, some .ints)]
  inputs := [.load (.subPsiIdx, none) .ints, .buffer (.psiFirst, some .ints), .load (.psiLast, some .ints) .ints]
  outputs := [[(.subPsiLast, some .ints)]]
  compute := fun _ _ xs =>
    match xs with
    | [.ints idx, .ints heads, .ints tails] => (SrCSA.submarksPsi tails heads.length idx).map (fun sub => [.ints sub])
    | _ => none

/-- constructSubmarkLinksForPhiForwardWithPsiRuns (sr_csa_psi.h:660-706) -/
def markLinksPsi : CacheStep where
  guards := [(.subPsiLink, some .ints)]
  inputs := [.load (.subPsiLast, some .ints) .ints]
  outputs := [[(.subPsiLink, some .ints)]]
  compute := fun _ _ xs =>
    match xs with
    | [.ints sub] => some [.ints (sortIndices sub)]
    | _ => none

/-- constructCumulativeCountsWithPsiRuns (sr_csa_psi.h:708-729) -/
def cumulativePsi : CacheStep where
  guards := [(.psiCum, some .ints)]
  inputs := [.load (.psi, some .psi) .psi, .buffer (.psiFirst, some .ints)]
  outputs := [[(.psiCum, some .ints)]]
  compute := fun _ _ xs =>
    match xs with
    | [.psi core, .ints _] => (SrCSA.cumulative core (List.range core.parts.length) 0).map (fun c => [.ints c])
    | _ => none

/-- constructItems(SrCSAWithPsiRun) (sr_csa_psi.h:473-531) -/
def srCSAWithPsiRun (b : BvKind) : List CacheStep :=
  (rcsaWithPsiRun ++ [sorted .psiFirstAsc (.psiFirst, some .ints)]) ++ [samplesPsi, marksPsi] ++
    [bitVector .subPsiLast .sd (.subPsiLast, some .ints) (.bwt, none), markLinksPsi,
     bitVector .subPsiIdx b (.subPsiIdx, some .ints) (.psiFirst, some .ints), cumulativePsi]

/-- constructSubmarksValidity (sr_csa_psi.h:759-802), if neither the bit vector nor the integers exist (738-746) -/
def validityPsi : CacheStep where
  guards := [(.validPsiMark, some .bitVector), (.validPsiMark, some .ints)]
  inputs := [.load (.psiLast, some .ints) .ints, .load (.subPsiLast, some .ints) .ints]
  outputs := [[(.validPsiMark, some .ints)], [(.validPsiArea, some .ints)]]
  compute := fun _ _ xs =>
    match xs with
    | [.ints tails, .ints sub] => do
      let q ← validityInts (sortBy (fun x => x) tails) sub
      return [.ints (q.map (·.1)), .ints (q.map (·.2))]
    | _ => none

/-- constructItems(SRCSAValidMark) after that of SrCSAWithPsiRun (sr_csa_psi.h:733-757) -/
def psiValidMark : List CacheStep := [validityPsi, validBits .validPsiMark (.validPsiMark, some .ints) (.subPsiLast, some .ints)]

/-- constructItems(SRCSAValidArea) (sr_csa_psi.h:804-830): copies the areas from a file to itself, if there is none -/
def areasPsi : CacheStep where
  guards := [(.validPsiArea, some .ints)]
  inputs := [.load (.validPsiArea, some .ints) .ints]
  outputs := [[(.validPsiArea, some .ints)]]
  compute := fun _ _ xs =>
    match xs with
    | [.ints areas] => some [.ints areas]
    | _ => none

end Steps

/-- the steps of `construct` for an index type -/
def program (t : IndexType) (b : BvKind) : List CacheStep :=
  match t with
  | .rIndex => Steps.rIndex
  | .srIndex => Steps.srIndex b
  | .srIndexValidMark => Steps.srIndexValid b
  | .srIndexValidArea => Steps.srIndexValid b
  | .rcsaWithBWTRun => Steps.rcsaWithBWTRun
  | .rcsaWithPsiRun => Steps.rcsaWithPsiRun
  | .srCSA => Steps.srCSA b
  | .srCSASlim => Steps.srCSASlim b
  | .srCSAValidMark => Steps.srCSA b ++ Steps.srCSAValid
  | .srCSAValidArea => Steps.srCSA b ++ Steps.srCSAValid
  | .srCSASlimValidMark => Steps.srCSASlim b ++ Steps.srCSAValid
  | .srCSASlimValidArea => Steps.srCSASlim b ++ Steps.srCSAValid
  | .srCSAWithPsiRun => Steps.srCSAWithPsiRun b
  | .psiValidMark => Steps.srCSAWithPsiRun b ++ Steps.psiValidMark
  | .psiValidArea => Steps.srCSAWithPsiRun b ++ Steps.psiValidMark ++ [Steps.areasPsi]

/-- the stores of `construct` of an index at a rate, in a process -/
def constructEvents (bytes : List Nat) (t : IndexType) (b : BvKind) (s : Nat) (P : Process) : List CacheEvent :=
  (runSteps bytes s (program t b) P).1

/-- the process after `construct`, unless it faults or throws -/
def constructIn (bytes : List Nat) (t : IndexType) (b : BvKind) (s : Nat) (P : Process) : Option Process :=
  (runSteps bytes s (program t b) P).2

/-- the queries of an index loaded in a process, by a new object at the rate, into a storage of its own -/
def loadIn {α : Type} (K : Codec α) (t : IndexType) (b : BvKind) (s : Nat) (P : Process) : Option Queries := do
  let (I, S) ← (Object.fresh t b (if t.sampled then some s else none)).loadCache K [] P.cache
  I.queries S

end Sri
