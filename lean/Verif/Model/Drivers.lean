/-! # benchmark/build_bm.sh, benchmark/run_bm.sh: the scripts that run the builder and the benchmark over all collections

Paths are modelled without symbolic links. What `mkdir -p` and `cd` need of the disk is an oracle: `enter d` says whether the script can make
the directory `d` and go there. The names of a directory come from `entries`. The messages are not modelled. -/
namespace Sri
set_option autoImplicit false
namespace Drivers

abbrev Name := List Char

/-- a path as it is written: absolute or not, and its parts -/
structure Path where
  abs : Bool
  parts : List Name
deriving Repr, DecidableEq

/-- `p/x` -/
def Path.join (p : Path) (x : Name) : Path := { p with parts := p.parts ++ [x] }

/-- one part of a path, from the directory reached so far -/
def step (d : List Name) (x : Name) : List Name := if x = ['.', '.'] then d.dropLast else if x = ['.'] then d else d ++ [x]

/-- the place a path means for a process in the directory `cwd` -/
def resolve (cwd : List Name) (p : Path) : List Name := p.parts.foldl step (if p.abs then [] else cwd)

/-- `"$dir"/*` (build_bm.sh:8, run_bm.sh:9): the visible names of the directory; the pattern itself if there are none -/
def glob (entries : List Name → List Name) (cwd : List Name) (dir : Path) : List Path :=
  match (entries (resolve cwd dir)).filter (fun x => x.head? ≠ some '.') with
  | [] => [dir.join ['*']]
  | l => l.map dir.join

/-- `basename "$coll"` (build_bm.sh:9, run_bm.sh:10) of a path that does not end in a slash -/
def basename (p : Path) : Name := p.parts.getLastD []

/-- one run of a program: the directory it runs in, the program, and the files it is given, as the program finds them -/
structure Run where
  cwd : List Name
  program : List Name
  data : List (List Name)
  out : List Name
deriving Repr, DecidableEq

/-- what a script runs for a collection: program, arguments that are paths, suffix of the name of the report -/
structure Call where
  program : Path
  files : List Path
  suffix : Name
deriving Repr, DecidableEq

/-- the loop over the collections: make the directory, go there, run, go back (build_bm.sh:8-18, run_bm.sh:9-19) -/
def loop (enter : List Name → Bool) (call : Path → Call) : List Name → List Path → List Run
  | _, [] => []
  | cwd, coll :: rest =>
    let d := resolve cwd { abs := false, parts := [basename coll] }
    if enter d then
      let c := call coll
      { cwd := d, program := resolve d c.program, data := c.files.map (resolve d), out := d ++ [basename coll ++ c.suffix] } ::
        loop enter call (resolve d { abs := false, parts := [['.', '.']] }) rest
    else []

/-- the call of build_bm.sh:15: `"$dir_tools"/bm_build_ri_items --data "$coll"/data --benchmark_out="$coll_name"-build.csv` -/
def buildCall (tools : Path) (coll : Path) : Call :=
  { program := tools.join "bm_build_ri_items".toList, files := [coll.join "data".toList], suffix := "-build.csv".toList }

/-- build_bm.sh -/
def buildBm (entries : List Name → List Name) (enter : List Name → Bool) (cwd : List Name) (colls tools : Path) : List Run :=
  loop enter (buildCall tools) cwd (glob entries cwd colls)

/-- the call of run_bm.sh:16: `$benchmark --data_dir "$dir_idxs"/"$coll_name" --patterns "$dir_colls"/"$coll_name"/patterns
    --benchmark_out="$coll_name".csv`. The program is not quoted: a name with white space would be cut, which is not modelled. -/
def runCall (idxs colls benchmark : Path) (coll : Path) : Call :=
  { program := benchmark, files := [idxs.join (basename coll), (colls.join (basename coll)).join "patterns".toList], suffix := ".csv".toList }

/-- run_bm.sh -/
def runBm (entries : List Name → List Name) (enter : List Name → Bool) (cwd : List Name) (idxs colls benchmark : Path) : List Run :=
  loop enter (runCall idxs colls benchmark) cwd (glob entries cwd idxs)

end Drivers
end Sri
