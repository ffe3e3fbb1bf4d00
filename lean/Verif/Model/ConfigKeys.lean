import Verif.Model.CacheSteps
/-! # Names of the files of a cache in a configuration

A Config holds a JSON object with names of files (config.h:24-42, 108-124), which a user can replace. The classes over the runs of psi
take names from it in some places and use fixed names in others; the other classes use fixed names only. -/
namespace Sri
set_option autoImplicit false

/-- the entries of Config::keys that the code reads (config.h:46-88); those of psi that nothing reads are left out -/
inductive KeyEntry where
  | alphabet | bwt | bwtHeadPos | bwtHeadTextPos | bwtTailPos | bwtTailTextPos | psi
  | psiCum | headTextPos | headIdx | headAscIdx | tailTextPos | tailLink | tailMark | tailArea
deriving DecidableEq, Repr

/-- Config::keys: the name of an entry, `none` when the object has no such entry. Using an absent entry is a fault:
    operator[] of nlohmann::json on a const object without it is undefined, and on another one it adds a null, whose conversion to a string
    throws. -/
abbrev ConfigKeys := KeyEntry → Option Key

/-- createDefaultKeys<8> (config.h:43-92); KEY_BWT and KEY_PSI of sdsl are "bwt" and "psi" -/
def ConfigKeys.default : ConfigKeys
  | .alphabet => some "alphabet".toList
  | .bwt => some "bwt".toList
  | .bwtHeadPos => some "bwt_run_first".toList
  | .bwtHeadTextPos => some "bwt_run_first_text_pos".toList
  | .bwtTailPos => some "bwt_run_last".toList
  | .bwtTailTextPos => some "bwt_run_last_text_pos".toList
  | .psi => some "psi".toList
  | .psiCum => some "psi_run_cumulative_count".toList
  | .headTextPos => some "psi_run_first_text_pos".toList
  | .headIdx => some "psi_run_first_idx".toList
  | .headAscIdx => some "psi_run_first_text_pos_asc_idx".toList
  | .tailTextPos => some "psi_run_last_text_pos".toList
  | .tailLink => some "psi_run_last_text_pos_asc_link".toList
  | .tailMark => some "psi_run_last_text_pos_asc_valid_mark".toList
  | .tailArea => some "psi_run_last_text_pos_asc_valid_area".toList

/-- `Config()`: no names (config.h:113) -/
def ConfigKeys.unset : ConfigKeys := fun _ => Option.none

/-- the entry that names a file where its name is taken from the configuration; a file with a rate has the rate before it -/
def FileName.entry : FileName → Option KeyEntry
  | .alphabet => some .alphabet
  | .bwt => some .bwt
  | .first => some .bwtHeadPos
  | .firstTextPos => some .bwtHeadTextPos
  | .last => some .bwtTailPos
  | .lastTextPos => some .bwtTailTextPos
  | .psi => some .psi
  | .psiCum => some .psiCum
  | .psiFirst => some .headTextPos
  | .psiLast => some .tailTextPos
  | .psiLink => some .tailLink
  | .psiFirstAsc => some .headAscIdx
  | .subPsiIdx => some .headIdx
  | .subPsiFirst => some .headTextPos
  | .subPsiLast => some .tailTextPos
  | .subPsiLink => some .tailLink
  | .validPsiMark => some .tailMark
  | .validPsiArea => some .tailArea
  | _ => Option.none

/-- the file of a name taken from the configuration -/
def ConfigKeys.file (k : ConfigKeys) (s : Nat) (r : FileRef) : Option File := do
  let e ← r.1.entry
  let name ← k e
  return (if r.1.key.1 then ratePrefix s ++ name else name, r.2)

/-- a step of a construction, and where its names come from: `guard`, that the name of its guards is taken from the configuration; `keyed`,
    the files it reads and writes whose names are -/
structure KeyedStep where
  step : CacheStep
  guard : Bool
  keyed : FileName → Bool

namespace KeyedStep

/-- a step that uses fixed names only -/
def fixed (st : CacheStep) : KeyedStep := { step := st, guard := false, keyed := fun _ => false }

/-- a step that takes all its names from the configuration -/
def config (st : CacheStep) : KeyedStep := { step := st, guard := true, keyed := fun _ => true }

def place (k : ConfigKeys) (s : Nat) (st : KeyedStep) (r : FileRef) : Option File := if st.keyed r.1 then k.file s r else some (r.file s)

def guardPlace (k : ConfigKeys) (s : Nat) (st : KeyedStep) (r : FileRef) : Option File := if st.guard then k.file s r else some (r.file s)

/-- a read of a step (`CacheRead.run`) from the file `f` -/
def readAt (P : Process) (f : File) : CacheRead → Option Item
  | .load _ ty =>
    (match P.disk (P.fileName f) with
     | Option.none => Item.new ty
     | some c => c)
  | .buffer _ => (P.disk (P.fileName f)).bind id

/-- the stores of a step (`storeEvents`) to the files `gs` -/
def storeAt : List (List File) → List Item → List CacheEvent
  | [], _ => []
  | g :: gs, xs =>
    g.map (fun f => .opened f) ++ (g.zip (xs.take g.length)).map (fun q => .closed q.1 q.2) ++ storeAt gs (xs.drop g.length)

/-- whether one of the guards exists -/
def skip (k : ConfigKeys) (s : Nat) (st : KeyedStep) (P : Process) : Option Bool := do
  let fs ← st.step.guards.mapM (st.guardPlace k s)
  return fs.any P.has

/-- the stores of a step and the process after it. An entry that is missing is a fault, which is placed before the first store. -/
def run (k : ConfigKeys) (bytes : List Nat) (s : Nat) (st : KeyedStep) (P : Process) : Option (List CacheEvent × Process) := do
  let xs ← st.step.inputs.mapM (fun q => do
    let f ← st.place k s q.ref
    readAt P f q)
  let gs ← st.step.outputs.mapM (fun g => g.mapM (st.place k s))
  let al ← st.step.aliases.mapM (fun q => do
    let f ← st.place k s q.1
    let g ← st.place k s q.2
    return (f, g))
  let ys ← st.step.compute bytes s xs
  let es := storeAt gs ys
  return (es, { disk := P.disk.applyAll es, fileMap := al.foldl (fun m q => fun f => if f = q.1 then some q.2 else m f) P.fileMap })

end KeyedStep

/-- run a construction with the names of a configuration, unless it faults or throws -/
def runKeyed (k : ConfigKeys) (bytes : List Nat) (s : Nat) : List KeyedStep → Process → Option Process
  | [], P => some P
  | st :: rest, P => do
    let skip ← st.skip k s P
    if skip then runKeyed k bytes s rest P
    else
      let q ← st.run k bytes s P
      runKeyed k bytes s rest q.2

namespace KeyedSteps
open KeyedStep

/-- constructItems(RCSAWithPsiRun) (r_csa.h:623-676). The base items and psi are written under fixed names (construct_sdsl.h:126-163,
    construct.h:69-92), but psi is looked for under a name of the configuration (r_csa.h:633). constructPsiRuns (construct.h:94-138) loads
    the alphabet and the string by fixed names, and the rest by names of the configuration. -/
def rcsaWithPsiRun : List KeyedStep :=
  Steps.base.map fixed ++
    [{ step := Steps.psi, guard := true, keyed := fun _ => false },
     { step := Steps.psiRuns, guard := true, keyed := fun n => !(n == .alphabet || n == .bwtRle) },
     config (Steps.bitVector .psiLast .sd (.psiLast, some .ints) (.bwt, none)), config Steps.psiLinks]

/-- constructItems(SrCSAWithPsiRun) (sr_csa_psi.h:473-531): constructCumulativeCountsWithPsiRuns loads psi by its fixed name
    (sr_csa_psi.h:712) -/
def srCSAWithPsiRun (b : BvKind) : List KeyedStep :=
  rcsaWithPsiRun ++
    [config (Steps.sorted .psiFirstAsc (.psiFirst, some .ints)), config Steps.samplesPsi, config Steps.marksPsi,
     config (Steps.bitVector .subPsiLast .sd (.subPsiLast, some .ints) (.bwt, none)), config Steps.markLinksPsi,
     config (Steps.bitVector .subPsiIdx b (.subPsiIdx, some .ints) (.psiFirst, some .ints)),
     { step := Steps.cumulativePsi, guard := true, keyed := fun n => !(n == .psi) }]

end KeyedSteps

/-- the steps of `construct` for an index type, with the places their names come from (sr_csa_psi.h:733-757, 804-830 for the last two) -/
def keyedProgram (t : IndexType) (b : BvKind) : List KeyedStep :=
  match t with
  | .rcsaWithPsiRun => KeyedSteps.rcsaWithPsiRun
  | .srCSAWithPsiRun => KeyedSteps.srCSAWithPsiRun b
  | .psiValidMark => KeyedSteps.srCSAWithPsiRun b ++ Steps.psiValidMark.map KeyedStep.config
  | .psiValidArea => KeyedSteps.srCSAWithPsiRun b ++ Steps.psiValidMark.map KeyedStep.config ++ [KeyedStep.config Steps.areasPsi]
  | t => (program t b).map KeyedStep.fixed

/-- the process after `construct` with the names of a configuration -/
def constructWith (k : ConfigKeys) (bytes : List Nat) (t : IndexType) (b : BvKind) (s : Nat) (P : Process) : Option Process :=
  runKeyed k bytes s (keyedProgram t b) P

/-- the entry of a slot in setupKeyNames of the classes over the runs of psi (r_csa.h:443-450, sr_csa_psi.h:67-79, 333-338, 424-429) -/
def slotEntry : Slot → KeyEntry
  | .alphabet => .alphabet
  | .navigate => .psi
  | .samples => .headTextPos
  | .marks => .tailTextPos
  | .markToSample => .tailLink
  | .samplesIdx => .headIdx
  | .runCumulativeCount => .psiCum
  | .validMarks => .tailMark
  | .validAreas => .tailArea

/-- the slots whose names setupKeyNames of a class sets -/
def namedSlots (t : IndexType) : List Slot :=
  [.alphabet, .navigate, .samples, .marks, .markToSample] ++ (if t.sampled then [.samplesIdx] else [])
    ++ (if t.counted then [.runCumulativeCount] else []) ++ (if t.withMarks then [.validMarks] else [])
    ++ (if t.withAreas then [.validAreas] else [])

/-- setupKeyNames(keys) (r_csa.h:443-450, sr_csa_psi.h:67-79, 333-338, 424-429): the names of the slots, given key_prefix_. The other classes
    do not look at the configuration (`keyOf`). -/
def setupKeyNames (k : ConfigKeys) (t : IndexType) (pre : Key) : Option (Slot → Key) :=
  if t.overPsiRuns then do
    let _ ← (namedSlots t).mapM (fun slot => k (slotEntry slot))
    return fun slot =>
      if slot ∈ namedSlots t then
        let name := (k (slotEntry slot)).getD []
        if (keyName t slot).1 then pre ++ name else name
      else []
  else some (keyOf t pre)

namespace Object
variable {α : Type} (K : Codec α)

/-- `load(Config)` with the names of the configuration (r_csa.h:400-403, 436-441) -/
def loadWith (k : ConfigKeys) (I : Object) (S : Storage) (C : Cache) : Option (Object × Storage) := do
  let keys ← setupKeyNames k I.type I.pre
  let I := { I with keys := keys }
  let st ← LoadState.runAll K I.keys (loadAllItems I.type I.bv ++ constructAccesses I.type I.bv) { storage := S, source := .cache C }
  return (I, st.storage)

end Object

/-- the queries of an index loaded in a process with the names of a configuration, by a new object at the rate -/
def loadInWith {α : Type} (K : Codec α) (k : ConfigKeys) (t : IndexType) (b : BvKind) (s : Nat) (P : Process) : Option Queries := do
  let (I, S) ← (Object.fresh t b (if t.sampled then some s else none)).loadWith K k [] P.cache
  I.queries S

end Sri
