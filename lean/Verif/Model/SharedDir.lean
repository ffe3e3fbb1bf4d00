import Verif.Model.CacheSteps
/-! # Caches of several data sets in one directory -/
namespace Sri
set_option autoImplicit false

/-- the id of a cache: `t_data_path.filename()` (config.h:112-118) -/
def configId (path : List Char) : List Char := (path.reverse.takeWhile (fun c => c != '/')).reverse

/-- sdsl::cache_file_name without the directory: `key_id.sdsl`; with a type, `key_hash_id.sdsl` -/
def diskName (hash : ItemType → List Char) (id : List Char) (f : File) : List Char :=
  f.1 ++ (match f.2 with | none => [] | some ty => '_' :: hash ty) ++ '_' :: id ++ ".sdsl".toList

/-- an output directory, by file names -/
abbrev Directory := List Char → Option (Option Item)

/-- the parts of a name between its underscores -/
def wordsOf : List Char → List (List Char)
  | [] => [[]]
  | c :: l =>
    if c = '_' then [] :: wordsOf l
    else
      match wordsOf l with
      | w :: ws => (c :: w) :: ws
      | [] => [[c]]

/-- the words that the keys are made of (`FileName.key`) -/
def keyWords : List (List Char) :=
  ["text", "sa", "bwt", "alphabet", "rle", "run", "first", "last", "pos", "sorted", "idx", "to", "psi", "cumulative", "count", "asc", "link",
   "by", "valid", "mark", "area"].map String.toList

/-- a word of the keys, or a number: a rate or the hash of a type -/
def isKeyWord (w : List Char) : Bool := (!w.isEmpty && w.all Char.isDigit) || keyWords.contains w

/-- no key of the library is empty or ends in a digit, and all are made of the words above (`FileName.key`) -/
def wellNamed (f : File) : Bool := f.1.getLast?.any (fun c => !c.isDigit) && (wordsOf f.1).all isKeyWord

/-- the cache with the given id in a directory. Names that are not `wellNamed` are not used by the constructions and are left out. -/
def Directory.view (hash : ItemType → List Char) (id : List Char) (dir : Directory) : Disk :=
  fun f => if wellNamed f then dir (diskName hash id f) else none

/-- a store into the cache with the given id -/
def Directory.apply (hash : ItemType → List Char) (id : List Char) (dir : Directory) : CacheEvent → Directory
  | .opened f => fun n => if n = diskName hash id f then some none else dir n
  | .closed f x => fun n => if n = diskName hash id f then some (some x) else dir n

def Directory.applyAll (hash : ItemType → List Char) (id : List Char) (dir : Directory) (es : List CacheEvent) : Directory :=
  es.foldl (Directory.apply hash id) dir

/-- a data set: where it is, and what it holds -/
structure DataSet where
  path : List Char
  bytes : List Nat

def DataSet.id (d : DataSet) : List Char := configId d.path

/-- a construction under way: what is constructed, the stores of the current step that are still to be made, and the steps after it -/
structure Job where
  t : IndexType
  b : BvKind
  s : Nat
  todo : List CacheEvent
  rest : List CacheStep

/-- one directory and, for every data set, a process at work on it: its file_map (as in `Process`) and the construction under way, if any -/
structure Workshop (ι : Type) where
  dir : Directory
  fileMap : ι → File → Option File
  job : ι → Option Job

/-- an empty directory, and no construction under way -/
def Workshop.start (ι : Type) : Workshop ι := { dir := fun _ => none, fileMap := fun _ _ => none, job := fun _ => none }

/-- the process of a data set -/
def Workshop.process {ι : Type} (hash : ItemType → List Char) (data : ι → DataSet) (W : Workshop ι) (i : ι) : Process :=
  { disk := W.dir.view hash (data i).id, fileMap := W.fileMap i }

/-- one move of the process of a data set; the processes move in any order. A step of a construction (`CacheStep`) reads its inputs in one
    move and makes every store in a move of its own. `stop`: the process ends, in the middle of a construction or not, and a new one takes
    its place; what it leaves must satisfy `ok` if it is in the middle of a construction. -/
inductive Workshop.Move {ι : Type} [DecidableEq ι] (hash : ItemType → List Char) (data : ι → DataSet) (ok : Disk → Prop) :
    Workshop ι → Workshop ι → Prop
  | begin {W : Workshop ι} (i : ι) (t : IndexType) (b : BvKind) (s : Nat) : W.job i = none →
      Move hash data ok W { W with job := fun k => if k = i then some ⟨t, b, s, [], program t b⟩ else W.job k }
  | skip {W : Workshop ι} (i : ι) (t : IndexType) (b : BvKind) (s : Nat) (st : CacheStep) (rest : List CacheStep) : W.job i = some ⟨t, b, s, [], st :: rest⟩ →
      st.guards.any (fun r => (W.process hash data i).has (r.file s)) = true →
      Move hash data ok W { W with job := fun k => if k = i then some ⟨t, b, s, [], rest⟩ else W.job k }
  | enter {W : Workshop ι} (i : ι) (t : IndexType) (b : BvKind) (s : Nat) (st : CacheStep) (rest : List CacheStep) (es : List CacheEvent) :
      W.job i = some ⟨t, b, s, [], st :: rest⟩ → st.guards.any (fun r => (W.process hash data i).has (r.file s)) = false →
      st.run (data i).bytes s (W.process hash data i) = some es →
      Move hash data ok W { W with
        fileMap := fun k => if k = i then (st.after s es (W.process hash data i)).fileMap else W.fileMap k,
        job := fun k => if k = i then some ⟨t, b, s, es, rest⟩ else W.job k }
  | store {W : Workshop ι} (i : ι) (t : IndexType) (b : BvKind) (s : Nat) (e : CacheEvent) (es : List CacheEvent) (rest : List CacheStep) :
      W.job i = some ⟨t, b, s, e :: es, rest⟩ →
      Move hash data ok W { W with
        dir := W.dir.apply hash (data i).id e,
        job := fun k => if k = i then some ⟨t, b, s, es, rest⟩ else W.job k }
  | finish {W : Workshop ι} (i : ι) (t : IndexType) (b : BvKind) (s : Nat) : W.job i = some ⟨t, b, s, [], []⟩ →
      Move hash data ok W { W with job := fun k => if k = i then none else W.job k }
  | stop {W : Workshop ι} (i : ι) : (W.job i ≠ none → ok (W.dir.view hash (data i).id)) →
      Move hash data ok W { W with
        fileMap := fun k => if k = i then fun _ => none else W.fileMap k,
        job := fun k => if k = i then none else W.job k }

/-- any number of moves -/
inductive Workshop.Moves {ι : Type} [DecidableEq ι] (hash : ItemType → List Char) (data : ι → DataSet) (ok : Disk → Prop) (W : Workshop ι) :
    Workshop ι → Prop
  | refl : Moves hash data ok W W
  | step {W' W'' : Workshop ι} : Moves hash data ok W W' → Workshop.Move hash data ok W' W'' → Moves hash data ok W W''

end Sri
