/-! # benchmark/plot_queries.py: tables and curves of the benchmark results

Modelled from the tables that pandas has read: the cut of the first ten lines of a results file (plot_queries.py:80-92) and the drawing itself
are not. Numbers are of any type `V`; `ms` is the product by 1000 (line 115). -/
namespace Sri
set_option autoImplicit false
namespace PlotQueries

/-- a line of the file of indexes: the columns `name` and `label` (plot_queries.py:67-71) -/
structure IndexRow where
  name : List Char
  label : List Char
deriving Repr, DecidableEq

/-- a line of the results of a collection: the columns `name`, `Bits_x_Symbol`, `Time_x_Pattern` and `Patterns` (plot_queries.py:92, 103, 114-121) -/
structure ResultRow (V : Type) where
  name : List Char
  space : V
  time : V
  patterns : V
deriving Repr, DecidableEq

/-- a line of the table that is written (plot_queries.py:96-97, 117-121) -/
structure OutRow (V : Type) where
  label : List Char
  name : List Char
  space : V
  time : V
  patterns : V
deriving Repr, DecidableEq

/-- `index_name.split('/')[0]` (plot_queries.py:103-105) -/
def baseName (n : List Char) : List Char := n.takeWhile (· ≠ '/')

/-- `names[name]`: a dictionary filled line by line, so that the last line of a name counts (plot_queries.py:67-71, 106) -/
def labelOf (idx : List IndexRow) (b : List Char) : Option (List Char) := (idx.reverse.find? (fun r => r.name = b)).map (·.label)

variable {V : Type}

/-- `X`, `Y`, `indexes_included` (by its keys, whose values are their places) and the lines written (plot_queries.py:99-101) -/
structure State (V : Type) where
  included : List (List Char)
  X : List (List V)
  Y : List (List V)
  out : List (OutRow V)
deriving Repr, DecidableEq

/-- `L[i].append(v)`; no such list is a fault -/
def appendAt (L : List (List V)) (i : Nat) (v : V) : Option (List (List V)) := do
  let l ← L[i]?
  return L.set i (l ++ [v])

/-- one round of the loop over the results (plot_queries.py:102-121) -/
def addRow (idx : List IndexRow) (ms : V → V) (st : State V) (r : ResultRow V) : Option (State V) :=
  match labelOf idx (baseName r.name) with
  | none => some st
  | some label => do
    let st := if baseName r.name ∈ st.included then st
      else { st with included := st.included ++ [baseName r.name], X := st.X ++ [[]], Y := st.Y ++ [[]] }
    let i := st.included.idxOf (baseName r.name)
    let X ← appendAt st.X i r.space
    let Y ← appendAt st.Y i (ms r.time)
    return { st with X := X, Y := Y, out := st.out ++ [⟨label, r.name, r.space, ms r.time, r.patterns⟩] }

/-- the loop over the results (plot_queries.py:99-121) -/
def collect (idx : List IndexRow) (ms : V → V) (data : List (ResultRow V)) : Option (State V) :=
  data.foldlM (addRow idx ms) ⟨[], [], [], []⟩

/-- plot_result (plot_queries.py:10-30, 123-129): a curve for each number in the column `show` of the file of the collection, with the label of
    that line of the file of indexes. Marker, size and colours are read from the same line. -/
def curves (idx : List IndexRow) (show_ : List Nat) (st : State V) : Option (List (List Char × List V × List V)) :=
  show_.mapM (fun k => do
    let x ← st.X[k]?
    let y ← st.Y[k]?
    let r ← idx[k]?
    return (r.label, x, y))

/-- one collection (plot_queries.py:75-129): the lines written, then the curves -/
def plot (idx : List IndexRow) (ms : V → V) (show_ : List Nat) (data : List (ResultRow V)) :
    Option (List (OutRow V) × List (List Char × List V × List V)) := do
  let st ← collect idx ms data
  let c ← curves idx show_ st
  return (st.out, c)

end PlotQueries
end Sri
