import Verif.Proofs.CacheLoad
/-! # A bit vector without its supports stays so -/
namespace Sri
set_option autoImplicit false

section
variable {bytes : List Nat}

theorem storeEvents_only (s : Nat) : ∀ (gs : List (List FileRef)) (xs : List Item), ∀ e ∈ storeEvents s gs xs, ∃ r ∈ gs.flatten, r.file s = e.file
  | [], _, e, he => by simp [storeEvents] at he
  | g :: gs, xs, e, he => by
    unfold storeEvents at he
    rw [List.mem_append, List.mem_append] at he
    rcases he with (he | he) | he
    · obtain ⟨r, hr, rfl⟩ := List.mem_map.1 he
      exact ⟨r, by rw [List.flatten_cons]; exact List.mem_append_left _ hr, rfl⟩
    · obtain ⟨q, hq, rfl⟩ := List.mem_map.1 he
      exact ⟨q.1, by rw [List.flatten_cons]; exact List.mem_append_left _ (List.of_mem_zip hq).1, rfl⟩
    · obtain ⟨r, hr, e⟩ := storeEvents_only s gs _ e he
      exact ⟨r, by rw [List.flatten_cons]; exact List.mem_append_right _ hr, e⟩

/-- file `g` at rate `s` is there, file `r` is not -/
structure Stuck (g r : FileRef) (s : Nat) (P : Process) : Prop where
  there : (P.disk (g.file s)).isSome = true
  absent : P.disk (r.file s) = none
  map : MapOK P.fileMap

/-- every step that writes `r` is skipped if `g` is there -/
def Guarded (g r : FileRef) (st : CacheStep) : Prop :=
  (r ∈ st.outputs.flatten → g ∈ st.guards) ∧ ∀ q ∈ st.aliases, q = ((.subPsiIdx, none), (.subPsiIdx, some .ints))

theorem mapOK_after {s : Nat} {st : CacheStep} {es : List CacheEvent} {P : Process} (hP : MapOK P.fileMap)
    (ha : ∀ q ∈ st.aliases, q = ((.subPsiIdx, none), (.subPsiIdx, some .ints))) : MapOK (st.after s es P).fileMap := by
  have key : ∀ (l : List (FileRef × FileRef)) (m : File → Option File), MapOK m →
      (∀ q ∈ l, q = ((.subPsiIdx, none), (.subPsiIdx, some .ints))) →
      MapOK (l.foldl (fun m q => fun f => if f = q.1.file s then some (q.2.file s) else m f) m) := by
    intro l
    induction l with
    | nil => intro m hm _; exact hm
    | cons q l ih =>
      intro m hm hl
      refine ih _ ?_ (fun q hq => hl q (List.mem_cons_of_mem _ hq))
      intro f g hfg
      dsimp only at hfg
      split at hfg
      · rename_i hf
        rw [hl q List.mem_cons_self] at hf hfg
        exact ⟨s, hf, (Option.some.inj hfg).symm⟩
      · exact hm f g hfg
  exact key _ _ hP ha

theorem run_stuck {g r : FileRef} {s₀ : Nat} (hgr : r.1 = g.1) (hg : g ≠ (.subPsiIdx, none)) (s : Nat) :
    ∀ (steps : List CacheStep) (P : Process), (∀ st ∈ steps, Guarded g r st) → Stuck g r s₀ P →
      (∀ e ∈ (runSteps bytes s steps P).1, e.file ≠ r.file s₀) ∧ ∀ P', (runSteps bytes s steps P).2 = some P' → Stuck g r s₀ P'
  | [], P, _, hP => ⟨by simp [runSteps], fun P' h => by cases h; exact hP⟩
  | st :: steps, P, hst, hP => by
    have ih := fun Q (hQ : Stuck g r s₀ Q) => run_stuck hgr hg s steps Q (fun st h => hst st (List.mem_cons_of_mem _ h)) hQ
    obtain ⟨k1, k2⟩ := hst st List.mem_cons_self
    rw [runSteps_cons]
    split
    · exact ih P hP
    · rename_i hng
      cases hr : st.run bytes s P with
      | none => exact ⟨by simp, fun P' h => by cases h⟩
      | some es =>
        dsimp only
        have hev : ∀ e ∈ es, e.file ≠ r.file s₀ := by
          intro e he hf
          unfold CacheStep.run at hr
          simp only [Option.bind_eq_bind, Option.bind_eq_some_iff, Option.pure_def, Option.some.injEq] at hr
          obtain ⟨xs, -, ys, -, rfl⟩ := hr
          obtain ⟨r', hr', e'⟩ := storeEvents_only s _ _ e he
          rw [hf] at e'
          obtain ⟨rfl, hs⟩ := file_inj e'
          refine hng (List.any_eq_true.2 ⟨g, k1 hr', ?_⟩)
          rw [has_eq hP.map hg]
          cases hk : g.1.key.1 with
          | true => rw [hs (by rw [hgr]; exact hk)]; exact hP.there
          | false => rw [file_eq_of_plain hk s s₀]; exact hP.there
        have hA : Stuck g r s₀ (st.after s es P) := by
          refine ⟨?_, ?_, mapOK_after hP.map k2⟩
          · change ((P.disk.applyAll es) _).isSome = true
            rw [applyAll_exists]; exact Or.inl hP.there
          · change (P.disk.applyAll es) _ = none
            rw [← Option.not_isSome_iff_eq_none, applyAll_exists]
            rintro (h | ⟨e, he, hf⟩)
            · rw [hP.absent] at h; cases h
            · exact hev e he hf
        obtain ⟨h1, h2⟩ := ih _ hA
        refine ⟨fun e he => ?_, h2⟩
        rcases List.mem_append.1 he with he | he
        · exact hev e he
        · exact h1 e he

/-- what a step may do with the marks of an index and with file_map -/
def stuckCheck (m : FileName) (st : CacheStep) : Bool :=
  (!decide ((m, some .sdRank) ∈ st.outputs.flatten) || decide ((m, some .sdVector) ∈ st.guards)) &&
    st.aliases.all (fun q => decide (q = ((.subPsiIdx, none), (.subPsiIdx, some .ints))))

def markFiles : List FileName := [.firstTextPos, .subFirstByLast, .lastTextPos, .subLastByFirst, .psiLast, .subPsiLast]

theorem guarded_all (t : IndexType) (b : BvKind) : ∀ m ∈ markFiles, ∀ st ∈ program t b, Guarded (m, some .sdVector) (m, some .sdRank) st := by
  have : ∀ m ∈ markFiles, (program t b).all (stuckCheck m) = true := by cases t <;> cases b <;> decide +kernel
  intro m hm st hst
  have h := List.all_eq_true.1 (this m hm) st hst
  unfold stuckCheck at h
  rw [Bool.and_eq_true, Bool.or_eq_true, Bool.not_eq_true', decide_eq_false_iff_not, decide_eq_true_iff, List.all_eq_true] at h
  exact ⟨fun h' => h.1.resolve_left (fun k => k h'), fun q hq => of_decide_eq_true (h.2 q hq)⟩

theorem marks_file (t : IndexType) : slotName t .marks ∈ markFiles := by cases t <;> decide

/-! ## Loading without the rank support of the marks -/

variable {α : Type} {K : Codec α}

theorem loadItem_adds {st st' : LoadState α} {ty : ItemType} {k : Key} {hash : Bool} {x : Item} {C : Cache} (hs : st.source = .cache C)
    (h : LoadState.loadItem K st ty k hash = some (x, st')) :
    st'.source = .cache C ∧ ∀ k', k' ≠ k → st.storage.find k' = none → st'.storage.find k' = none := by
  unfold LoadState.loadItem at h
  split at h
  · cases h; exact ⟨hs, fun _ _ h => h⟩
  · simp only [hs, LoadState.read, Option.bind_eq_bind, Option.bind_eq_some_iff, Option.pure_def, Option.some.injEq, Prod.mk.injEq] at h
    obtain ⟨⟨y, src⟩, ⟨y', -, -, -, rfl, rfl⟩, z, hz, rfl, rfl⟩ := h
    refine ⟨rfl, fun k' hk hf => ?_⟩
    dsimp only
    unfold Storage.set
    cases hk' : st.storage.find k with
    | some _ => exact hf
    | none =>
      dsimp only
      unfold Storage.find at hf ⊢
      rw [List.lookup_cons]
      rw [show (k' == k) = false from by simpa using hk]
      exact hf

theorem load_without_rank {t : IndexType} {b : BvKind} {s : Nat} {C : Cache}
    (hC : C (keyOf t (buildPrefix t s) .marks) (some .sdRank) = none) : (Object.fresh t b (rateArg t s)).loadCache K [] C = none := by
  have hpre : (Object.fresh t b (rateArg t s)).pre = buildPrefix t s := fresh_pre t b s
  have ht : (Object.fresh t b (rateArg t s)).type = t := fresh_type t b _
  have hb : (Object.fresh t b (rateArg t s)).bv = b := fresh_bv t b _
  obtain ⟨J, hJ⟩ : ∃ J, J = Object.fresh t b (rateArg t s) := ⟨_, rfl⟩
  rw [← hJ] at hpre ht hb ⊢
  have inj : ∀ slot ∈ [Slot.alphabet, .navigate, .samples, .marks],
      keyOf t (buildPrefix t s) .marks ++ "_rank".toList ≠ keyOf t (buildPrefix t s) slot := by
    intro slot hslot e
    have hw : (⟨.marks, .rank, .sdRank⟩ : Write) ∈ writes t b := by simp [writes]
    have hx : ∃ ty, (⟨slot, .self, ty⟩ : Write) ∈ writes t b := by
      simp only [List.mem_cons, List.not_mem_nil, or_false] at hslot
      rcases hslot with rfl | rfl | rfl | rfl
      · exact ⟨.alphabet, by simp [writes]⟩
      · exact ⟨navTy t, by simp [writes]⟩
      · exact ⟨.ints, by simp [writes]⟩
      · exact ⟨.sdVector, by simp [writes]⟩
    obtain ⟨ty, hx⟩ := hx
    have := writes_key_inj t b (buildPrefix t s) _ hw _ hx (by
      unfold Write.key Part.suffix
      simpa using e)
    cases this
  unfold Object.loadCache Object.loadInner
  rw [ht, hb, hpre]
  dsimp only
  unfold loadAllItems
  simp only [List.cons_append, LoadState.runAll, LoadState.run]
  cases h1 : LoadState.loadItem K { storage := [], source := .cache C } .alphabet (keyOf t (buildPrefix t s) .alphabet) false with
  | none => rfl
  | some q1 =>
  obtain ⟨s1, f1⟩ := loadItem_adds (C := C) rfl h1
  simp only [Option.bind_eq_bind, Option.bind_some, Option.pure_def]
  cases h2 : LoadState.loadItem K q1.2 (navTy t) (keyOf t (buildPrefix t s) .navigate) (!t.overBWT) with
  | none => rfl
  | some q2 =>
  obtain ⟨s2, f2⟩ := loadItem_adds s1 h2
  simp only [Option.bind_some]
  cases h3 : LoadState.loadItem K q2.2 .ints (keyOf t (buildPrefix t s) .samples) t.overPsiRuns with
  | none => rfl
  | some q3 =>
  obtain ⟨s3, f3⟩ := loadItem_adds s2 h3
  simp only [Option.bind_some]
  cases h4 : LoadState.loadItem K q3.2 .sdVector (keyOf t (buildPrefix t s) .marks) true with
  | none => rfl
  | some q4 =>
  obtain ⟨s4, f4⟩ := loadItem_adds s3 h4
  simp only [Option.bind_some]
  have hk := f4 _ (inj .marks (by decide)) (f3 _ (inj .samples (by decide)) (f2 _ (inj .navigate (by decide)) (f1 _ (inj .alphabet (by decide)) rfl)))
  have h5 : LoadState.loadSupport K q4.2 Part.rank.suffix .sdVector .sdRank (keyOf t (buildPrefix t s) .marks) true = none := by
    unfold LoadState.loadSupport Storage.get
    rw [show Part.rank.suffix = "_rank".toList from rfl, hk]
    dsimp only
    cases h6 : LoadState.loadItem K q4.2 .sdVector (keyOf t (buildPrefix t s) .marks) true with
    | none => rfl
    | some q5 =>
      obtain ⟨s5, -⟩ := loadItem_adds s4 h6
      simp only [Option.bind_eq_bind, Option.bind_some, s5, LoadState.read, if_true, hC]
      cases q5.1.bits <;> rfl
  rw [h5]
  rfl

end
end Sri
