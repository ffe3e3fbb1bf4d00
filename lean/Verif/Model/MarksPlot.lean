import Verif.Model.CacheSteps
/-! # The tool that exports an item of the cache, and the script that plots the marks

tool/int_vector_to_vector.cpp writes the integers of a file of the cache to a file of 64-bit words; tool/plot_marks.py calls it for the marks of a
collection, unless the file is already there, reads the words back and plots them. Of the plots only the sorting of the collections is modelled, because it
can fail. A collection is a directory with its data in the file `data`, so the names of the files depend on the key only. -/
namespace Sri
set_option autoImplicit false

/-- `fs.write(reinterpret_cast<const char *>(&item), sizeof(uint64_t))` (int_vector_to_vector.cpp:30), on a little-endian machine -/
def wordBytes : Nat → Nat → List Nat
  | 0, _ => []
  | k + 1, x => x % 256 :: wordBytes k (x / 256)

/-- the files `<cache_file_name(key)>.vec.bin` beside the cache -/
abbrev VecFiles := Key → Option (List Nat)

def VecFiles.empty : VecFiles := fun _ => none

/-- main of the tool (int_vector_to_vector.cpp:18-36): `--hash_type` adds the hash of the type to the name of the file that is read, not to that of the file
    written. load_from_cache only warns when there is no file. A file that is not complete or that holds something else is a fault. -/
def exportVector (key : Key) (hashType : Bool) (D : Disk) (V : VecFiles) : Option VecFiles := do
  let ivec ← match D (key, if hashType then some .ints else none) with
    | none => some []
    | some (some (.ints l)) => some l
    | _ => none
  return fun k => if k = key then some (ivec.flatMap (wordBytes 8)) else V k

/-- `struct.unpack('Q', chunk)[0]` (plot_marks.py:95), on a little-endian machine -/
def wordOf : List Nat → Nat
  | [] => 0
  | b :: l => b + 256 * wordOf l

/-- read_data (plot_marks.py:91-97): unpack raises an exception on a chunk of less than 8 bytes -/
def readData : List Nat → Option (List Nat)
  | [] => some []
  | a :: b :: c :: d :: e :: f :: g :: h :: rest => (readData rest).map (wordOf [a, b, c, d, e, f, g, h] :: ·)
  | _ => none

/-- process_data (plot_marks.py:70-88): the files afterwards, and the values in ascending order unless there is an exception (`open` raises one if the tool
    has left no file) -/
def processData (key : Key) (D : Disk) (V : VecFiles) : VecFiles × Option (List Nat) :=
  let V := if (V key).isSome then V else (exportVector key false D V).getD V
  (V, ((V key).bind readData).map (sortBy (fun x => x)))

/-- the key of the marks of a rate (plot_marks.py:64-66) -/
def plotKey (s : Nat) : Key := ratePrefix s ++ "bwt_run_first_text_pos".toList

/-- the loop of process_collection (plot_marks.py:63-66); an exception ends it -/
def processRates (D : Disk) : List Nat → VecFiles → VecFiles × Option (List (Nat × List Nat))
  | [], V => (V, some [])
  | s :: rates, V =>
    match processData (plotKey s) D V with
    | (V, none) => (V, none)
    | (V, some values) =>
      let (V, rest) := processRates D rates V
      (V, rest.map ((s, values) :: ·))

/-- the rates of plot_marks.py:63 -/
def plotRates : List Nat := [4, 8, 16, 32, 64]

/-- process_collection (plot_marks.py:48-65): the values of all marks, under `0`, and those of every rate -/
def processCollection (D : Disk) (V : VecFiles) : VecFiles × Option (List (Nat × List Nat)) :=
  match processData "bwt_run_first_text_pos".toList D V with
  | (V, none) => (V, none)
  | (V, some values) =>
    let (V, rest) := processRates D plotRates V
    (V, rest.map ((0, values) :: ·))

/-- `data[c][len(data[c]) - 1]` of the key of a sort (plot_marks.py:138, 202, 239): an exception for an empty list (`data[c][-1]`) -/
def lastValue (values : List Nat) : Option Nat := values.getLast?

/-- main with one collection (plot_marks.py:14-46): the files afterwards, and what is plotted -/
def plotMarks (D : Disk) (V : VecFiles) : VecFiles × Option (List (Nat × List Nat)) :=
  let (V, data) := processCollection D V
  (V, do
    let data ← data
    let _ ← data.mapM (fun q => lastValue q.2)
    return data)

end Sri
