import Verif.Model.CacheSteps
/-! # Several processes that construct indexes of the same data set in the same directory at the same time

Nothing in construct.h, construct_base.h, construct_sdsl.h, r_index.h, sr_index.h, r_csa.h, sr_csa.h or sr_csa_psi.h locks the directory or writes
a file under another name first: every step asks sdsl::cache_file_exists and then writes in place. -/
namespace Sri
set_option autoImplicit false

/-- A process in `construct` of an index: the steps it still has to do, the stores of the step it is in, its file_map, and whether it has
    ended with a fault or an exception. -/
structure Worker where
  type : IndexType
  bits : BvKind
  rate : Nat
  todo : List CacheStep
  pending : List CacheEvent
  fileMap : File → Option File
  failed : Bool

/-- a process at the start of `construct` with a new configuration -/
def Worker.start (t : IndexType) (b : BvKind) (s : Nat) : Worker :=
  { type := t, bits := b, rate := s, todo := program t b, pending := [], fileMap := fun _ => none, failed := false }

/-- `construct` has done its work -/
def Worker.done (w : Worker) : Bool := w.todo.isEmpty && w.pending.isEmpty && !w.failed

/-- One move of a process on the shared directory: it opens or closes a file of the step it is in; or it begins the next step, which is
    skipped if one of its guards exists. Simplified: that the guards are looked for, the inputs read and the results computed is one
    move, and an entry of file_map is made at the beginning of the stores of its step. -/
def Worker.move (bytes : List Nat) (D : Disk) (w : Worker) : Disk × Worker :=
  match w.pending with
  | e :: es => (D.apply e, { w with pending := es })
  | [] =>
    if w.failed then (D, w)
    else
      match w.todo with
      | [] => (D, w)
      | st :: rest =>
        if st.guards.any (fun r => Process.has ⟨D, w.fileMap⟩ (r.file w.rate)) then (D, { w with todo := rest })
        else
          match st.run bytes w.rate ⟨D, w.fileMap⟩ with
          | none => (D, { w with failed := true })
          | some es => (D, { w with todo := rest, pending := es, fileMap := (st.after w.rate [] ⟨D, w.fileMap⟩).fileMap })

/-- the shared directory and the processes -/
structure Race where
  disk : Disk
  workers : List Worker

/-- the process with the number `i` moves -/
def Race.move (bytes : List Nat) (i : Nat) (R : Race) : Race :=
  match R.workers[i]? with
  | none => R
  | some w => { disk := (w.move bytes R.disk).1, workers := R.workers.set i (w.move bytes R.disk).2 }

/-- the processes move in the order that a schedule gives -/
def Race.run (bytes : List Nat) (schedule : List Nat) (R : Race) : Race := schedule.foldl (fun R i => R.move bytes i) R

/-- processes that construct the indexes `jobs` (type, type of bit vectors, rate) in a directory, before the first move -/
def Race.start (D : Disk) (jobs : List (IndexType × BvKind × Nat)) : Race :=
  { disk := D, workers := jobs.map (fun j => Worker.start j.1 j.2.1 j.2.2) }

end Sri
