import Verif.Proofs.CacheStuck
/-! # Half-written files stay so, and what reads them fails -/
namespace Sri
set_option autoImplicit false

/-- the step reads one of the files -/
def readsOne (H : List FileRef) (st : CacheStep) : Bool := st.inputs.any (fun i => decide (i.ref ∈ H))

/-- the files `H` at rate `s` are half written, the files `A` are not there -/
structure Torn (H A : List FileRef) (s : Nat) (P : Process) : Prop where
  half : ∀ r ∈ H, P.disk (r.file s) = some none
  absent : ∀ r ∈ A, P.disk (r.file s) = none
  map : MapOK P.fileMap

/-- what a step may do with the files -/
def tornCheck (H A : List FileRef) (st : CacheStep) : Bool :=
  (if readsOne H st then st.guards.all (fun g => decide (g ∈ A) && decide (g ≠ (.subPsiIdx, none)))
   else st.outputs.flatten.all (fun r => decide (r ∉ A)) &&
     (st.guards.any (fun g => decide (g ∈ H)) || st.outputs.flatten.all (fun r => decide (r ∉ H)))) &&
  st.aliases.all (fun q => decide (q = ((.subPsiIdx, none), (.subPsiIdx, some .ints))))

/-- the names of `H` are without rate, or all those of `H` and `A` are with a rate -/
def tornNames (H A : List FileRef) : Bool :=
  H.all (fun r => decide (r ≠ (.subPsiIdx, none))) && (H.all (fun r => !r.1.key.1) || (H ++ A).all (fun r => r.1.key.1))

theorem mapM_none_of_mem {β γ : Type} {f : β → Option γ} {x : β} (hx : f x = none) : ∀ {l : List β}, x ∈ l → l.mapM f = none
  | y :: l, h => by
    rw [List.mapM_cons]
    rcases List.mem_cons.1 h with rfl | h
    · rw [hx]; rfl
    · rw [mapM_none_of_mem hx h]; cases f y <;> rfl

theorem applyAll_apart {f : File} : ∀ (es : List CacheEvent) (D : Disk), (∀ e ∈ es, e.file ≠ f) → (D.applyAll es) f = D f
  | [], _, _ => rfl
  | e :: es, D, h => by
    have h1 : D.applyAll (e :: es) = (D.apply e).applyAll es := rfl
    rw [h1, applyAll_apart es _ (fun e' he' => h e' (List.mem_cons_of_mem _ he'))]
    have h2 := h e List.mem_cons_self
    cases e with
    | opened g => simp only [Disk.apply]; rw [if_neg (fun h => h2 h.symm)]
    | closed g x => simp only [Disk.apply]; rw [if_neg (fun h => h2 h.symm)]

variable {bytes : List Nat} {H A : List FileRef} {s₀ : Nat}

theorem torn_read (hn : ∀ r ∈ H, r ≠ ((.subPsiIdx, none) : FileRef)) {P : Process} (hP : Torn H A s₀ P) {s : Nat} (hs : ∀ r ∈ H, r.file s = r.file s₀)
    {st : CacheStep} (h : readsOne H st = true) : st.run bytes s P = none := by
  unfold readsOne at h
  rw [List.any_eq_true] at h
  obtain ⟨i, hi, hr⟩ := h
  rw [decide_eq_true_iff] at hr
  have : CacheRead.run s P i = none := by
    cases i with
    | load r ty =>
      change r ∈ H at hr
      simp only [CacheRead.run]
      rw [hP.map.fileName (hn r hr), hs r hr, hP.half r hr]
    | buffer r =>
      change r ∈ H at hr
      simp only [CacheRead.run]
      rw [hP.map.fileName (hn r hr), hs r hr, hP.half r hr]
      rfl
  unfold CacheStep.run
  rw [mapM_none_of_mem this hi]
  rfl

theorem run_torn (hna : tornNames H A = true) (s : Nat) :
    ∀ (steps : List CacheStep) (P : Process), (∀ st ∈ steps, tornCheck H A st = true) → Torn H A s₀ P →
      (∀ e ∈ (runSteps bytes s steps P).1, ∀ r ∈ H ++ A, e.file ≠ r.file s₀) ∧
      (∀ P', (runSteps bytes s steps P).2 = some P' → Torn H A s₀ P') ∧
      (s = s₀ → (∃ st ∈ steps, readsOne H st = true) → (runSteps bytes s steps P).2 = none)
  | [], P, _, hP => ⟨by simp [runSteps], fun P' h => by cases h; exact hP, fun _ h => by simp at h⟩
  | st :: steps, P, hst, hP => by
    have ih := fun Q (hQ : Torn H A s₀ Q) => run_torn hna s steps Q (fun st h => hst st (List.mem_cons_of_mem _ h)) hQ
    have hc := hst st List.mem_cons_self
    unfold tornCheck at hc
    rw [Bool.and_eq_true] at hc
    obtain ⟨k1, k2⟩ := hc
    have k2 : ∀ q ∈ st.aliases, q = (((.subPsiIdx, none), (.subPsiIdx, some .ints)) : FileRef × FileRef) :=
      fun q hq => of_decide_eq_true (List.all_eq_true.1 k2 q hq)
    unfold tornNames at hna
    rw [Bool.and_eq_true] at hna
    have hn : ∀ r ∈ H, r ≠ ((.subPsiIdx, none) : FileRef) := fun r hr => of_decide_eq_true (List.all_eq_true.1 hna.1 r hr)
    -- either the rates do not matter, or all names have one
    have cases2 : (∀ r ∈ H, r.file s = r.file s₀) ∨ (s ≠ s₀ ∧ ∀ r ∈ H ++ A, r.1.key.1 = true) := by
      by_cases e : s = s₀
      · exact Or.inl (fun r _ => by rw [e])
      · rcases Bool.or_eq_true_iff.1 hna.2 with h | h
        · exact Or.inl (fun r hr => file_eq_of_plain (by simpa using List.all_eq_true.1 h r hr) s s₀)
        · exact Or.inr ⟨e, fun r hr => List.all_eq_true.1 h r hr⟩
    rw [runSteps_cons]
    split
    · rename_i hg
      obtain ⟨i1, i2, i3⟩ := ih P hP
      refine ⟨i1, i2, fun hs ⟨st', h1, h2⟩ => ?_⟩
      rcases List.mem_cons.1 h1 with rfl | h1
      · rw [h2, if_pos rfl, List.all_eq_true] at k1
        obtain ⟨g, h3, h4⟩ := List.any_eq_true.1 hg
        have h5 := k1 g h3
        rw [Bool.and_eq_true, decide_eq_true_iff, decide_eq_true_iff] at h5
        rw [has_eq hP.map h5.2, hs, hP.absent g h5.1] at h4
        cases h4
      · exact i3 hs ⟨st', h1, h2⟩
    · rename_i hng
      cases hr : st.run bytes s P with
      | none => exact ⟨by simp, fun P' (h : none = some P') => by (cases h), fun _ _ => rfl⟩
      | some es =>
        dsimp only
        have hev : ∀ e ∈ es, ∀ r ∈ H ++ A, e.file ≠ r.file s₀ := by
          intro e he r hrHA hf
          have hrun := hr
          unfold CacheStep.run at hr
          simp only [Option.bind_eq_bind, Option.bind_eq_some_iff, Option.pure_def, Option.some.injEq] at hr
          obtain ⟨xs, -, ys, -, rfl⟩ := hr
          obtain ⟨r', hr', e'⟩ := storeEvents_only s _ _ e he
          rw [hf] at e'
          obtain ⟨rfl, hs⟩ := file_inj e'
          rcases cases2 with hsame | ⟨hne, hrate⟩
          · cases hread : readsOne H st with
            | true => rw [torn_read hn hP hsame hread] at hrun; cases hrun
            | false =>
              rw [hread, if_neg (by simp), Bool.and_eq_true] at k1
              rcases List.mem_append.1 hrHA with hH | hA
              · rcases Bool.or_eq_true_iff.1 k1.2 with h | h
                · obtain ⟨g, h3, h4⟩ := List.any_eq_true.1 h
                  rw [decide_eq_true_iff] at h4
                  refine hng (List.any_eq_true.2 ⟨g, h3, ?_⟩)
                  rw [has_eq hP.map (hn g h4), hsame g h4, hP.half g h4]
                  rfl
                · exact of_decide_eq_true (List.all_eq_true.1 h r' hr') hH
              · exact of_decide_eq_true (List.all_eq_true.1 k1.1 r' hr') hA
          · exact hne (hs (hrate r' hrHA))
        have keep : ∀ r ∈ H ++ A, (P.disk.applyAll es) (r.file s₀) = P.disk (r.file s₀) := by
          intro r hr'
          exact applyAll_apart es _ (fun e he => hev e he r hr')
        have hA : Torn H A s₀ (st.after s es P) := by
          refine ⟨fun r hr' => ?_, fun r hr' => ?_, mapOK_after hP.map k2⟩
          · change (P.disk.applyAll es) _ = some none
            rw [keep r (List.mem_append_left _ hr'), hP.half r hr']
          · change (P.disk.applyAll es) _ = none
            rw [keep r (List.mem_append_right _ hr'), hP.absent r hr']
        obtain ⟨h1, h2, h3⟩ := ih _ hA
        refine ⟨fun e he => ?_, h2, fun hs ⟨st', h4, h5⟩ => ?_⟩
        · rcases List.mem_append.1 he with he | he
          · exact hev e he
          · exact h1 e he
        · rcases List.mem_cons.1 h4 with rfl | h4
          · rw [torn_read hn hP (fun r _ => by rw [hs]) h5] at hr; cases hr
          · exact h3 hs ⟨st', h4, h5⟩

end Sri
