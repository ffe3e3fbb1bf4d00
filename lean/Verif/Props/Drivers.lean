import Verif.Model.Drivers
import Mathlib.Data.List.Basic
/-! # C83: the scripts over all collections

Called with absolute directories, build_bm.sh and run_bm.sh run the program once for each visible collection, in a directory of its own below the
one they are started in, on the files of that collection, until a directory cannot be entered. With relative directories every run is given
files that are not those of the collection, because the directory is left before the path is used; over an empty directory the program is run on
a collection named `*`. -/
namespace Sri
set_option autoImplicit false
namespace Drivers

/-- the collections: the visible names of the directory, as it is found from where the script is started -/
def collections (entries : List Name → List Name) (cwd : List Name) (dir : Path) : List Name :=
  (entries (resolve cwd dir)).filter (fun x => x.head? ≠ some '.')

/-- the run build_bm.sh owes a collection: its own directory below `cwd`, the file `data` of the collection -/
def owedBuild (cwd : List Name) (colls tools : Path) (x : Name) : Run :=
  { cwd := cwd ++ [x], program := resolve cwd tools ++ ["bm_build_ri_items".toList], data := [resolve cwd colls ++ [x, "data".toList]],
    out := cwd ++ [x, x ++ "-build.csv".toList] }

/-- the run run_bm.sh owes a collection: its own directory below `cwd`, the index items and the patterns of the collection -/
def owedRun (cwd : List Name) (idxs colls benchmark : Path) (x : Name) : Run :=
  { cwd := cwd ++ [x], program := resolve cwd benchmark,
    data := [resolve cwd idxs ++ [x], resolve cwd colls ++ [x, "patterns".toList]], out := cwd ++ [x, x ++ ".csv".toList] }

/-- a name that is a step down -/
def Plain (x : Name) : Prop := x ≠ ['.'] ∧ x ≠ ['.', '.']

theorem plain_of_mem {entries : List Name → List Name} {cwd : List Name} {dir : Path} {x : Name} (h : x ∈ collections entries cwd dir) : Plain x := by
  have := (List.mem_filter.1 h).2
  constructor <;> (rintro rfl; simp at this)

theorem step_plain {x : Name} (h : Plain x) (d : List Name) : step d x = d ++ [x] := by
  unfold step
  rw [if_neg h.2, if_neg h.1]

theorem resolve_join (d : List Name) (p : Path) {x : Name} (h : Plain x) : resolve d (p.join x) = resolve d p ++ [x] := by
  unfold resolve Path.join
  rw [List.foldl_append]
  exact step_plain h _

theorem resolve_abs {p : Path} (h : p.abs = true) (d e : List Name) : resolve d p = resolve e p := by
  unfold resolve
  rw [h]; rfl

theorem resolve_plain {p : Path} (h : p.abs = false) (hp : ∀ x ∈ p.parts, Plain x) (d : List Name) : resolve d p = d ++ p.parts := by
  unfold resolve
  rw [h]
  simp only [Bool.false_eq_true, if_false]
  have : ∀ (l : List Name) (e : List Name), (∀ x ∈ l, Plain x) → l.foldl step e = e ++ l := by
    intro l
    induction l with
    | nil => intros; simp
    | cons a l ih =>
      intro e hl
      rw [List.foldl_cons, step_plain (hl a (by simp)), ih _ (fun x hx => hl x (by simp [hx]))]
      simp
  exact this _ _ hp

theorem basename_join (p : Path) (x : Name) : basename (p.join x) = x := by
  unfold basename Path.join
  simp

theorem down {d : List Name} {x : Name} (h : Plain x) : resolve d { abs := false, parts := [x] } = d ++ [x] := by
  unfold resolve
  exact step_plain h _

theorem up (d : List Name) (x : Name) : resolve (d ++ [x]) { abs := false, parts := [['.', '.']] } = d := by
  simp [resolve, step]

theorem glob_eq {entries : List Name → List Name} {cwd : List Name} {dir : Path} (h : collections entries cwd dir ≠ []) :
    glob entries cwd dir = (collections entries cwd dir).map dir.join := by
  unfold glob
  unfold collections at h ⊢
  cases hl : (entries (resolve cwd dir)).filter (fun x => x.head? ≠ some '.') with
  | nil => exact absurd hl h
  | cons a l => rfl

/-- what is run for a collection, in general -/
def runOf (call : Path → Call) (cwd : List Name) (dir : Path) (x : Name) : Run :=
  { cwd := cwd ++ [x], program := resolve (cwd ++ [x]) (call (dir.join x)).program,
    data := (call (dir.join x)).files.map (resolve (cwd ++ [x])), out := cwd ++ [x] ++ [x ++ (call (dir.join x)).suffix] }

theorem loop_eq (enter : List Name → Bool) (call : Path → Call) (cwd : List Name) (dir : Path) {l : List Name} (hl : ∀ x ∈ l, Plain x) :
    loop enter call cwd (l.map dir.join) = (l.takeWhile (fun x => enter (cwd ++ [x]))).map (runOf call cwd dir) := by
  induction l with
  | nil => rfl
  | cons x l ih =>
    have hx := hl x (by simp)
    rw [List.map_cons]
    unfold loop
    simp only [basename_join, down hx, up]
    by_cases he : enter (cwd ++ [x]) = true
    · rw [if_pos he, List.takeWhile_cons, if_pos he, ih (fun y hy => hl y (by simp [hy]))]
      rfl
    · rw [if_neg he, List.takeWhile_cons, if_neg he]
      rfl

theorem plain_data : Plain "data".toList := by unfold Plain; decide
theorem plain_patterns : Plain "patterns".toList := by unfold Plain; decide
theorem plain_tool : Plain "bm_build_ri_items".toList := by unfold Plain; decide

theorem buildBm_eq {entries : List Name → List Name} (enter : List Name → Bool) {cwd : List Name} {colls : Path} (tools : Path)
    (h : collections entries cwd colls ≠ []) :
    buildBm entries enter cwd colls tools = ((collections entries cwd colls).takeWhile (fun x => enter (cwd ++ [x]))).map (fun x =>
      { cwd := cwd ++ [x], program := resolve (cwd ++ [x]) tools ++ ["bm_build_ri_items".toList],
        data := [resolve (cwd ++ [x]) colls ++ [x, "data".toList]], out := cwd ++ [x, x ++ "-build.csv".toList] }) := by
  unfold buildBm
  rw [glob_eq h, loop_eq enter _ cwd colls (fun x hx => plain_of_mem hx)]
  refine List.map_congr_left (fun x hx => ?_)
  have hx := plain_of_mem ((List.takeWhile_sublist _).subset hx)
  simp only [runOf, buildCall, List.map_cons, List.map_nil, resolve_join _ _ plain_data, resolve_join _ _ plain_tool, resolve_join _ _ hx]
  simp

theorem runBm_eq {entries : List Name → List Name} (enter : List Name → Bool) {cwd : List Name} {idxs : Path} (colls benchmark : Path)
    (h : collections entries cwd idxs ≠ []) :
    runBm entries enter cwd idxs colls benchmark = ((collections entries cwd idxs).takeWhile (fun x => enter (cwd ++ [x]))).map (fun x =>
      { cwd := cwd ++ [x], program := resolve (cwd ++ [x]) benchmark,
        data := [resolve (cwd ++ [x]) idxs ++ [x], resolve (cwd ++ [x]) colls ++ [x, "patterns".toList]],
        out := cwd ++ [x, x ++ ".csv".toList] }) := by
  unfold runBm
  rw [glob_eq h, loop_eq enter _ cwd idxs (fun x hx => plain_of_mem hx)]
  refine List.map_congr_left (fun x hx => ?_)
  have hx := plain_of_mem ((List.takeWhile_sublist _).subset hx)
  simp only [runOf, runCall, basename_join, List.map_cons, List.map_nil, resolve_join _ _ plain_patterns, resolve_join _ _ hx]
  simp

def exEntries (d : List Name) : List Name := if d = ["c".toList] then [".x".toList, "dna".toList, "wiki".toList] else []

end Drivers
open Drivers

/-- **C83**, build_bm.sh with absolute directories: each visible collection, in order, is built from its own data in its own directory, up to the
first directory that cannot be entered. -/
theorem c83_build_partial {entries : List Name → List Name} (enter : List Name → Bool) {cwd : List Name} {colls tools : Path}
    (hc : colls.abs = true) (ht : tools.abs = true) (h : collections entries cwd colls ≠ []) :
    buildBm entries enter cwd colls tools =
      ((collections entries cwd colls).takeWhile (fun x => enter (cwd ++ [x]))).map (owedBuild cwd colls tools) := by
  rw [buildBm_eq enter tools h]
  refine List.map_congr_left (fun x _ => ?_)
  simp only [owedBuild, resolve_abs hc (cwd ++ [x]) cwd, resolve_abs ht (cwd ++ [x]) cwd]

/-- **C83**, run_bm.sh with absolute directories and program: each visible collection, in order, is measured on its own items with its own
patterns, up to the first directory that cannot be entered. -/
theorem c83_run_partial {entries : List Name → List Name} (enter : List Name → Bool) {cwd : List Name} {idxs colls benchmark : Path}
    (hi : idxs.abs = true) (hc : colls.abs = true) (hb : benchmark.abs = true) (h : collections entries cwd idxs ≠ []) :
    runBm entries enter cwd idxs colls benchmark =
      ((collections entries cwd idxs).takeWhile (fun x => enter (cwd ++ [x]))).map (owedRun cwd idxs colls benchmark) := by
  rw [runBm_eq enter colls benchmark h]
  refine List.map_congr_left (fun x _ => ?_)
  simp only [owedRun, resolve_abs hi (cwd ++ [x]) cwd, resolve_abs hc (cwd ++ [x]) cwd, resolve_abs hb (cwd ++ [x]) cwd]

/-- with a relative directory of collections (a path without `.` and `..`) no run of build_bm.sh is given the data of its collection -/
theorem c83_build_violation {entries : List Name → List Name} (enter : List Name → Bool) {cwd : List Name} {colls : Path} (tools : Path)
    (hc : colls.abs = false) (hp : ∀ x ∈ colls.parts, Plain x) (h : collections entries cwd colls ≠ []) :
    ∀ r ∈ buildBm entries enter cwd colls tools, ∀ x ∈ collections entries cwd colls, r.data ≠ (owedBuild cwd colls tools x).data := by
  intro r hr x _ he
  rw [buildBm_eq enter tools h] at hr
  obtain ⟨y, -, rfl⟩ := List.mem_map.1 hr
  have := congrArg (fun l => (l.map List.length).sum) he
  simp [owedBuild, resolve_plain hc hp] at this

/-- with a relative directory of indexes or of patterns (without `.` and `..`) no run of run_bm.sh is given all the files of its collection -/
theorem c83_run_violation {entries : List Name → List Name} (enter : List Name → Bool) {cwd : List Name} {idxs colls : Path} (benchmark : Path)
    (hr : (idxs.abs = false ∧ ∀ x ∈ idxs.parts, Plain x) ∨ (colls.abs = false ∧ ∀ x ∈ colls.parts, Plain x))
    (h : collections entries cwd idxs ≠ []) :
    ∀ r ∈ runBm entries enter cwd idxs colls benchmark, ∀ x ∈ collections entries cwd idxs, r.data ≠ (owedRun cwd idxs colls benchmark x).data := by
  intro r hm x _ he
  rw [runBm_eq enter colls benchmark h] at hm
  obtain ⟨y, -, rfl⟩ := List.mem_map.1 hm
  simp only [owedRun, List.cons.injEq, and_true] at he
  rcases hr with ⟨h1, h2⟩ | ⟨h1, h2⟩
  · have := congrArg List.length he.1
    simp [resolve_plain h1 h2] at this
  · have := congrArg List.length he.2
    simp [resolve_plain h1 h2] at this

/-- over a directory without visible names build_bm.sh runs the program once, on a collection named `*` -/
theorem c83_build_empty_violation {entries : List Name → List Name} {enter : List Name → Bool} {cwd : List Name} {colls : Path} (tools : Path)
    (h : collections entries cwd colls = []) (he : enter (cwd ++ [['*']]) = true) :
    ∃ r, buildBm entries enter cwd colls tools = [r] ∧ r.cwd = cwd ++ [['*']] ∧ r.out = cwd ++ [['*'], "*-build.csv".toList] := by
  have hg : glob entries cwd colls = [colls.join ['*']] := by
    unfold glob
    unfold collections at h
    rw [h]
  have hs : Plain ['*'] := by unfold Plain; decide
  have hl := loop_eq enter (buildCall tools) cwd colls (l := [['*']]) (by simpa using hs)
  unfold buildBm
  rw [hg]
  rw [List.map_cons, List.map_nil, List.takeWhile_cons, if_pos he, List.takeWhile_nil, List.map_cons, List.map_nil] at hl
  exact ⟨_, hl, rfl, by simp [runOf, buildCall]⟩

/-! Two collections in /c, started in /w; the second directory cannot be entered in the last example. -/
example : collections exEntries ["w".toList] ⟨true, ["c".toList]⟩ = ["dna".toList, "wiki".toList] := by decide +kernel
example : buildBm exEntries (fun _ => true) ["w".toList] ⟨true, ["c".toList]⟩ ⟨true, ["t".toList]⟩ =
    [⟨["w".toList, "dna".toList], ["t".toList, "bm_build_ri_items".toList], [["c".toList, "dna".toList, "data".toList]],
        ["w".toList, "dna".toList, "dna-build.csv".toList]⟩,
     ⟨["w".toList, "wiki".toList], ["t".toList, "bm_build_ri_items".toList], [["c".toList, "wiki".toList, "data".toList]],
        ["w".toList, "wiki".toList, "wiki-build.csv".toList]⟩] := by decide +kernel
/-- started in the root with `c`: the data are looked for in /dna/c/dna -/
example : collections exEntries [] ⟨false, ["c".toList]⟩ = ["dna".toList, "wiki".toList] ∧ (∀ x ∈ ["c".toList], Plain x) ∧
    (buildBm exEntries (fun _ => true) [] ⟨false, ["c".toList]⟩ ⟨true, ["t".toList]⟩).map (·.data) =
      [[["dna".toList, "c".toList, "dna".toList, "data".toList]], [["wiki".toList, "c".toList, "wiki".toList, "data".toList]]] := by
  unfold Plain; decide +kernel
example : (runBm exEntries (fun d => d ≠ ["w".toList, "wiki".toList]) ["w".toList] ⟨true, ["c".toList]⟩ ⟨true, ["p".toList]⟩ ⟨true, ["b".toList]⟩).map (·.data) =
    [[["c".toList, "dna".toList], ["p".toList, "dna".toList, "patterns".toList]]] := by decide +kernel
example : collections exEntries ["w".toList] ⟨true, ["e".toList]⟩ = [] ∧
    (buildBm exEntries (fun _ => true) ["w".toList] ⟨true, ["e".toList]⟩ ⟨true, ["t".toList]⟩).map (·.data) =
      [[["e".toList, "*".toList, "data".toList]]] := by decide +kernel

end Sri
