import Verif.Proofs.FailedWrites
import Verif.Proofs.CacheStuck
/-! # A lost file that no step of the construction reads: construction does not notice -/
namespace Sri
set_option autoImplicit false

/-- the process `Q` is `P` without the file `f₀` -/
structure Without (f₀ : File) (P Q : Process) : Prop where
  disk : ∀ f, f ≠ f₀ → Q.disk f = P.disk f
  map : Q.fileMap = P.fileMap
  lost : Q.disk f₀ = none

/-- a step that neither looks for the file nor reads it, nor gives it a second name -/
def Unread (r : FileRef) (st : CacheStep) : Prop :=
  r ∉ st.guards ∧ (∀ q ∈ st.inputs, q.ref ≠ r) ∧ ∀ q ∈ st.aliases, q = ((.subPsiIdx, none), (.subPsiIdx, some .ints))

theorem applyAll_congr : ∀ (es : List CacheEvent) {D E : Disk} (f : File), D f = E f → (D.applyAll es) f = (E.applyAll es) f
  | [], _, _, _, h => h
  | e :: es, D, E, f, h => by
    refine applyAll_congr es f ?_
    cases e <;> (unfold Disk.apply; dsimp only; split <;> first | rfl | exact h)

section
variable {bytes : List Nat} {s : Nat} {r : FileRef}

theorem fileName_other {P : Process} (hm : MapOK P.fileMap) (hr : r ≠ (.subPsiIdx, some .ints)) {g : FileRef} (hg : g ≠ r) :
    P.fileName (g.file s) ≠ r.file s := by
  unfold Process.fileName
  cases hx : P.fileMap (g.file s) with
  | none => exact fun e => hg (file_inj e).1
  | some f =>
    obtain ⟨s', -, rfl⟩ := hm _ _ hx
    exact fun e => hr (file_inj e).1.symm

theorem Without.at {P Q : Process} (h : Without (r.file s) P Q) (hm : MapOK P.fileMap) (hr : r ≠ (.subPsiIdx, some .ints)) {g : FileRef} (hg : g ≠ r) :
    Q.disk (Q.fileName (g.file s)) = P.disk (P.fileName (g.file s)) := by
  have e : Q.fileName (g.file s) = P.fileName (g.file s) := by unfold Process.fileName; rw [h.map]
  rw [e]
  exact h.disk _ (fileName_other hm hr hg)

theorem mapM_congr_mem {α β : Type} {f g : α → Option β} : ∀ {l : List α}, (∀ a ∈ l, f a = g a) → l.mapM f = l.mapM g
  | [], _ => rfl
  | a :: l, h => by
    rw [List.mapM_cons, List.mapM_cons, h a (List.mem_cons_self ..), mapM_congr_mem (fun b hb => h b (List.mem_cons_of_mem _ hb))]

/-- a construction in which no step reads the file runs the same when the file cannot be written -/
theorem unread_run (hb : r.buffered = false) (hr : r ≠ (.subPsiIdx, some .ints)) : ∀ (steps : List CacheStep) (P Q P' : Process) (es : List CacheEvent),
    (∀ st ∈ steps, Unread r st) → MapOK P.fileMap → Without (r.file s) P Q → runSteps bytes s steps P = (es, some P') →
    ∃ Q', runStepsF (fun f => decide (f = r.file s)) bytes s steps Q = some Q' ∧ Without (r.file s) P' Q' ∧ MapOK Q'.fileMap
  | [], P, Q, P', es, _, hm, h, hrun => by
    cases hrun
    exact ⟨Q, rfl, h, by rw [h.map]; exact hm⟩
  | st :: steps, P, Q, P', es, hu, hm, h, hrun => by
    obtain ⟨u1, u2, u3⟩ := hu st (List.mem_cons_self ..)
    have hguard : st.guards.any (fun g => Q.has (g.file s)) = st.guards.any (fun g => P.has (g.file s)) := by
      rw [Bool.eq_iff_iff, List.any_eq_true, List.any_eq_true]
      have : ∀ g ∈ st.guards, Q.has (g.file s) = P.has (g.file s) := fun g hg => by
        unfold Process.has
        rw [h.at hm hr (fun e => u1 (e ▸ hg))]
      exact ⟨fun ⟨g, h1, h2⟩ => ⟨g, h1, by rw [← this g h1]; exact h2⟩, fun ⟨g, h1, h2⟩ => ⟨g, h1, by rw [this g h1]; exact h2⟩⟩
    rw [runSteps_cons] at hrun
    rw [runStepsF_cons, hguard]
    split at hrun
    · rename_i hg
      rw [if_pos hg]
      exact unread_run hb hr steps P Q P' es (fun x hx => hu x (List.mem_cons_of_mem _ hx)) hm h hrun
    · rename_i hg
      rw [if_neg hg]
      have hread : st.inputs.mapM (CacheRead.run s Q) = st.inputs.mapM (CacheRead.run s P) := by
        refine mapM_congr_mem (fun q hq => ?_)
        have := h.at hm hr (u2 q hq)
        cases q with
        | load g ty => unfold CacheRead.run; dsimp only; unfold CacheRead.ref at this; dsimp only at this; rw [this]
        | buffer g => unfold CacheRead.run; dsimp only; unfold CacheRead.ref at this; dsimp only at this; rw [this]
      have hstep : st.run bytes s Q = st.run bytes s P := by unfold CacheStep.run; rw [hread]
      cases hx : st.run bytes s P with
      | none => rw [hx] at hrun; simp at hrun
      | some es1 =>
        rw [hx] at hrun
        dsimp only at hrun
        have hF : st.runF (fun f => decide (f = r.file s)) bytes s Q = some (es1.filter (fun e => !decide (e.target = r.file s))) := by
          unfold CacheStep.runF
          rw [hstep, hx]
          have : st.outputs.flatten.all (fun x => !(x.buffered && decide (x.file s = r.file s))) = true := by
            rw [List.all_eq_true]
            intro x _
            by_cases e : x.file s = r.file s
            · obtain ⟨rfl, -⟩ := file_inj e
              rw [hb]; rfl
            · rw [decide_eq_false e]; simp
          simp only [Option.bind_eq_bind, Option.bind_some, this, assertC, if_true, Option.pure_def]
        rw [hF, Option.bind_some]
        have hal : st.aliases.filter (fun q => !decide (q.2.file s = r.file s)) = st.aliases := by
          rw [List.filter_eq_self]
          intro q hq
          rw [u3 q hq]
          rw [Bool.not_eq_true', decide_eq_false_iff_not]
          exact fun e => hr (file_inj e).1.symm
        have hw : Without (r.file s) (st.after s es1 P) (st.afterF (fun f => decide (f = r.file s)) s (es1.filter (fun e => !decide (e.target = r.file s))) Q) := by
          constructor
          · intro f hf
            unfold CacheStep.afterF CacheStep.after
            dsimp only
            have := applyAll_filter (fun f => decide (f = r.file s)) es1 Q.disk f
            rw [this, if_neg (by rw [decide_eq_true_eq]; exact hf)]
            exact applyAll_congr es1 f (h.disk f hf)
          · unfold CacheStep.afterF CacheStep.after
            dsimp only
            rw [hal, h.map]
          · unfold CacheStep.afterF
            dsimp only
            have := applyAll_filter (fun f => decide (f = r.file s)) es1 Q.disk (r.file s)
            rw [this, if_pos (by rw [decide_eq_true_eq])]
            exact h.lost
        obtain ⟨e1, e2⟩ := Prod.mk.inj hrun
        exact unread_run hb hr steps _ _ P' _ (fun x hx => hu x (List.mem_cons_of_mem _ hx)) (mapOK_after hm u3) hw (Prod.ext rfl e2)

end

/-- the rank support of the marks is read by no construction -/
theorem rank_unread (t : IndexType) (b : BvKind) : ∀ st ∈ program t b, Unread (slotName t .marks, some .sdRank) st := by
  have : (program t b).all (fun st => decide ((slotName t .marks, some .sdRank) ∉ st.guards) &&
      st.inputs.all (fun q => decide (q.ref ≠ (slotName t .marks, some .sdRank))) &&
      st.aliases.all (fun q => decide (q = ((.subPsiIdx, none), (.subPsiIdx, some .ints))))) = true := by
    cases t <;> cases b <;> decide +kernel
  intro st hst
  have h := List.all_eq_true.1 this st hst
  rw [Bool.and_eq_true, Bool.and_eq_true] at h
  exact ⟨of_decide_eq_true h.1.1, fun q hq => of_decide_eq_true (List.all_eq_true.1 h.1.2 q hq), fun q hq => of_decide_eq_true (List.all_eq_true.1 h.2 q hq)⟩

end Sri
