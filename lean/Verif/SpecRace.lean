import Verif.Model.Race
import Verif.Model.FailedWrites
/-! # When processes at work in one directory keep out of each other's way -/
namespace Sri
set_option autoImplicit false

/-- the files that a process looks for, reads or writes in the step that it begins with its next move, if it begins one -/
def Worker.touches (w : Worker) : List File :=
  match w.pending, w.todo with
  | [], st :: _ =>
    (st.guards ++ st.inputs.map CacheRead.ref).map (fun r => (w.fileMap (r.file w.rate)).getD (r.file w.rate))
      ++ st.outputs.flatten.map (FileRef.file w.rate)
  | _, _ => []

/-- the files that a process is in the midst of writing. Between the step that writes the samples of psi runs and the one that writes their
    marks, in which they are looked up (sr_csa_psi.h), the two count as one. -/
def Worker.holds (w : Worker) : List File :=
  w.pending.map CacheEvent.target ++
    match w.todo with
    | st :: _ => if st.outputs = [[(.subPsiLast, some .ints)]] then [FileRef.file w.rate (.subPsiFirst, some .ints), FileRef.file w.rate (.subPsiLast, some .ints)] else []
    | [] => []

/-- a schedule in which no process begins a step while another one is in the midst of writing a file that the step looks for, reads or
    writes -/
def Apart (bytes : List Nat) : List Nat → Race → Prop
  | [], _ => True
  | i :: rest, R =>
    (∀ w, R.workers[i]? = some w → ∀ j w', j ≠ i → R.workers[j]? = some w' → ∀ f ∈ w.touches, f ∉ w'.holds) ∧
      Apart bytes rest (R.move bytes i)

end Sri
