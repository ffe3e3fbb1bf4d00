import Verif.Proofs.LegacyDisk
/-! # Runs of bm_build_ri_items: what is registered, what stays, what stops -/
namespace Sri
set_option autoImplicit false

namespace LegacyBuild

/-! ## rounds -/

theorem rounds_same {σ : Type} (o : Option σ) (k : Nat) (y : σ) : Bench.rounds (fun _ => o) (k + 1) y = o := by
  cases o with
  | none => rfl
  | some x => exact rounds_const _ x (fun _ => rfl) k y

theorem buildBWT_rounds (k : Nat) (D : LegacyDisk) : buildBWT k D = buildBWT 0 D := by
  unfold buildBWT
  rw [rounds_same, rounds_same]

theorem run_rounds (bytes : List Nat) (k : Nat) (t : Step) (D : LegacyDisk) : t.run bytes k D = t.run bytes 0 D := by
  cases t <;> first | rfl | exact buildBWT_rounds k D

theorem runSteps_rounds (bytes : List Nat) (k : Nat) (l : List Step) (D : LegacyDisk) : runSteps bytes k l D = runSteps bytes 0 l D := by
  induction l generalizing D with
  | nil => rfl
  | cons t l ih =>
    rw [runSteps, runSteps, run_rounds]
    cases t.run bytes 0 D with
    | none => rfl
    | some D' => exact ih D'

/-! ## what is registered -/

/-- the registered benchmarks, from the keys that are needed -/
def plan (needed : LegacyKey → Bool) : List Step :=
  (if needed .text then [Step.text] else []) ++ (if needed .sa then [.sa] else []) ++ (if needed .bwt then [.bwt] else []) ++
  (if needed .bwtRle then [.rle] else []) ++ (if needed .tailsSortedVec then [.sortTails] else []) ++
  (if needed .headsSortedVec then [.sortHeads] else []) ++ (if needed (.tailsSampled 16) then rates.map .tails else []) ++
  (if needed (.headsSampledBv 16) then rates.map .heads else [])

theorem registered_eq (rebuild : Bool) (D : LegacyDisk) : registered rebuild D = plan (fun k => (D k).isNone || rebuild) := rfl

/-- all the benchmarks -/
def allSteps : List Step := plan (fun _ => true)

theorem registered_rebuild (D : LegacyDisk) : registered true D = allSteps := by
  rw [registered_eq]
  show plan _ = plan _
  congr 1
  funext k
  exact Bool.or_true _

theorem registered_empty : registered false LegacyDisk.empty = allSteps := rfl

/-- the files of all the benchmarks -/
def allKeys : List LegacyKey := allSteps.flatMap Step.outs

theorem allSteps_covered : covered [] allSteps = true := by decide

variable {T sa : List Nat}

theorem fill_congr (I : LegacyKey → Option LegacyVal) {a b : List LegacyKey} (D : LegacyDisk) (h1 : ∀ k ∈ a, k ∈ b) (h2 : ∀ k ∈ b, k ∈ a) :
    fill I a D = fill I b D := by
  funext k
  unfold fill
  by_cases h : k ∈ a
  · rw [if_pos h, if_pos (h1 k h)]
  · rw [if_neg h, if_neg (fun e => h (h2 k e))]

/-- every file of the right ones exists -/
theorem Data.ideal_some (h : Data T sa) (k : LegacyKey) : (ideal T sa k).isSome = true := by
  have hn := h.text.pos
  cases k with
  | bwtRle =>
    have hne : RleString.build (LegacyIndex.seq T sa) 2 ≠ none := (c41_build _ _ (by omega) (LegacyIndex.seq_lt h.isSA h.low)).2 ⟨by
      intro e
      have := LegacyIndex.seq_length (T := T) h.isSA
      rw [e] at this
      simp at this
      omega, LegacyIndex.seq_nonzero⟩
    obtain ⟨S, hS⟩ := Option.ne_none_iff_exists'.1 hne
    rw [ideal, hS]; rfl
  | _ => rfl

theorem Data.fill_none (h : Data T sa) (ks : List LegacyKey) : (fun k => (fill (ideal T sa) ks LegacyDisk.empty k).isNone || false) = fun k => decide (k ∉ ks) := by
  funext k
  unfold fill
  by_cases e : k ∈ ks
  · have := h.ideal_some k
    rw [if_pos e, Bool.or_false]
    simp [e, this]
  · rw [if_neg e]; simp [e, LegacyDisk.empty]

theorem Data.registered_fill (h : Data T sa) (ks : List LegacyKey) :
    registered false (fill (ideal T sa) ks LegacyDisk.empty) = plan (fun k => decide (k ∉ ks)) := by
  rw [registered_eq, h.fill_none]

/-- what a full run leaves: the directory with all the files right, others as they were -/
theorem main_all {bytes : List Nat} (h : Data T sa) (hb : textOf bytes = T) (hsa : suffixArray T = sa) (k : Nat) {rebuild : Bool} {D : LegacyDisk}
    (hD : rebuild = true ∨ D = LegacyDisk.empty) : main bytes rebuild k D = some (fill (ideal T sa) allKeys D) := by
  have hr : registered rebuild D = allSteps := by
    rcases hD with rfl | rfl
    · exact registered_rebuild D
    · cases rebuild
      · exact registered_empty
      · exact registered_rebuild _
  rw [main, hr]
  exact runSteps_eq h hb hsa k allSteps [] D allSteps_covered (by simp)

theorem fill_at {I : LegacyKey → Option LegacyVal} {ks : List LegacyKey} {D : LegacyDisk} {k : LegacyKey} (h : k ∈ ks) : fill I ks D k = I k := if_pos h

theorem allKeys_rate {s : Nat} (hs : s ∈ rates) :
    ∀ x ∈ [LegacyKey.bwtRle, .f, .tailsSampled s, .headsSampledBvSd s, .tailsByHeadS s, .tailsIdxBvSd s, .markedBv s, .areas s], x ∈ allKeys := by
  revert s
  decide

/-! ## stopped and started again -/

/-- the state after the first `n` benchmarks of a run in an empty directory -/
theorem stopped {bytes : List Nat} (h : Data T sa) (hb : textOf bytes = T) (hsa : suffixArray T = sa) (k n : Nat) :
    runSteps bytes k ((registered false LegacyDisk.empty).take n) LegacyDisk.empty =
      some (fill (ideal T sa) ((allSteps.take n).flatMap Step.outs) LegacyDisk.empty) := by
  rw [registered_empty]
  refine runSteps_eq h hb hsa k _ [] _ (covered_append (allSteps.take n) (allSteps.drop n) [] ?_) (by simp)
  rw [List.take_append_drop]
  exact allSteps_covered

/-- the number of benchmarks after which a new start does everything that is left -/
def Safe (n : Nat) : Prop := n ≤ 8 ∨ 14 ≤ n ∧ n ≤ 16 ∨ 22 ≤ n

instance (n : Nat) : Decidable (Safe n) := by unfold Safe; infer_instance

theorem safe_plan : ∀ n, n ≤ 22 → Safe n → covered ((allSteps.take n).flatMap Step.outs) (plan (fun k => decide (k ∉ (allSteps.take n).flatMap Step.outs))) = true ∧
    (∀ k ∈ (allSteps.take n).flatMap Step.outs ++ (plan (fun k => decide (k ∉ (allSteps.take n).flatMap Step.outs))).flatMap Step.outs, k ∈ allKeys) ∧
    (∀ k ∈ allKeys, k ∈ (allSteps.take n).flatMap Step.outs ++ (plan (fun k => decide (k ∉ (allSteps.take n).flatMap Step.outs))).flatMap Step.outs) := by
  decide +kernel

theorem restart_safe {bytes : List Nat} (h : Data T sa) (hb : textOf bytes = T) (hsa : suffixArray T = sa) (k n : Nat) (hn : Safe n) :
    main bytes false k (fill (ideal T sa) ((allSteps.take n).flatMap Step.outs) LegacyDisk.empty) = some (fill (ideal T sa) allKeys LegacyDisk.empty) := by
  wlog hle : n ≤ 22 generalizing n
  · have e : allSteps.take n = allSteps.take 22 := by
      rw [List.take_of_length_le (show allSteps.length ≤ n from Nat.le_trans (by decide) (Nat.le_of_not_le hle)),
        List.take_of_length_le (show allSteps.length ≤ 22 by decide)]
    rw [e]
    exact this 22 (by decide) (by decide)
  obtain ⟨h1, h2, h3⟩ := safe_plan n hle hn
  rw [main, h.registered_fill, runSteps_eq h hb hsa k _ _ _ h1 (fun x hx => fill_at hx), fill_fill]
  exact congrArg some (fill_congr _ _ h2 h3)

/-- no sampled runs: a fault -/
theorem headsRound_nil (heads sorted : List Nat) : headsRound heads [] sorted = none := by
  unfold headsRound
  dsimp only
  generalize decide (sorted.length = heads.length) = c
  cases c with
  | false => rfl
  | true =>
    simp only [assertC, if_true, Option.bind_eq_bind, Option.bind_some, List.mapM_nil, Option.pure_def]
    rw [show sortIndices ([] : List Nat) = [] by rfl]
    simp only [List.mapM_nil, Option.pure_def, Option.bind_some, List.head?_nil]
    cases sorted.head? with
    | none => rfl
    | some x =>
      cases sorted.getLast? with
      | none => rfl
      | some y => simp only [Option.bind_some, reduceCtorEq, decide_false, Bool.false_eq_true, if_false, Option.bind_none]

theorem heads_fault {s : Nat} {D : LegacyDisk} (h : D (.tailsIdxVec s) = none) : headsSampling s D = none := by
  have : D.ints (.tailsIdxVec s) = [] := by rw [LegacyDisk.ints, h]
  rw [headsSampling, this, headsRound_nil]; rfl

theorem unsafe_plan : ∀ n, 9 ≤ n → n ≤ 13 → ∃ i, i < 8 ∧
    plan (fun k => decide (k ∉ (allSteps.take n).flatMap Step.outs)) = (rates.take i).map .heads ++ .heads (rates.getD i 0) :: (rates.drop (i+1)).map .heads ∧
    covered ((allSteps.take n).flatMap Step.outs) ((rates.take i).map .heads) = true ∧
    LegacyKey.tailsIdxVec (rates.getD i 0) ∉ (allSteps.take n).flatMap Step.outs ++ ((rates.take i).map Step.heads).flatMap Step.outs := by
  intro n h1 h2
  have : n = 9 ∨ n = 10 ∨ n = 11 ∨ n = 12 ∨ n = 13 := by omega
  rcases this with rfl | rfl | rfl | rfl | rfl
  · exact ⟨3, by decide +kernel⟩
  · exact ⟨4, by decide +kernel⟩
  · exact ⟨5, by decide +kernel⟩
  · exact ⟨6, by decide +kernel⟩
  · exact ⟨7, by decide +kernel⟩

theorem restart_fault {bytes : List Nat} (h : Data T sa) (hb : textOf bytes = T) (hsa : suffixArray T = sa) (k n : Nat) (h1 : 9 ≤ n) (h2 : n ≤ 13) :
    main bytes false k (fill (ideal T sa) ((allSteps.take n).flatMap Step.outs) LegacyDisk.empty) = none := by
  obtain ⟨i, -, e1, e2, e3⟩ := unsafe_plan n h1 h2
  rw [main, h.registered_fill, e1, runSteps_append, runSteps_eq h hb hsa k _ _ _ e2 (fun x hx => fill_at hx), fill_fill, Option.bind_some, runSteps]
  have : (Step.heads (rates.getD i 0)).run bytes k (fill (ideal T sa) ((allSteps.take n).flatMap Step.outs ++ ((rates.take i).map Step.heads).flatMap Step.outs) LegacyDisk.empty) = none :=
    heads_fault (by rw [fill, if_neg e3]; rfl)
  rw [this]
  rfl

theorem skipped_plan : ∀ n, 17 ≤ n → n ≤ 22 → plan (fun k => decide (k ∉ (allSteps.take n).flatMap Step.outs)) = [] ∧
    (n < 22 → LegacyKey.areas 512 ∉ (allSteps.take n).flatMap Step.outs ∧ LegacyKey.headsSampledBvSd 512 ∉ (allSteps.take n).flatMap Step.outs ∧ LegacyKey.tailsByHeadS 512 ∉ (allSteps.take n).flatMap Step.outs) := by
  intro n h1 h2
  have : n = 17 ∨ n = 18 ∨ n = 19 ∨ n = 20 ∨ n = 21 ∨ n = 22 := by omega
  rcases this with rfl | rfl | rfl | rfl | rfl | rfl <;> decide +kernel

/-! ## files that are there from elsewhere -/

/-- a benchmark changes no other file than its own -/
theorem run_frame {bytes : List Nat} {k : Nat} {t : Step} {D D' : LegacyDisk} (h : t.run bytes k D = some D') {x : LegacyKey} (hx : x ∉ t.outs) : D' x = D x := by
  have st : ∀ (D : LegacyDisk) (a : LegacyKey) (v : LegacyVal), x ≠ a → D.store a v x = D x := fun D a v e => if_neg e
  cases t with
  | text =>
    simp only [Step.outs, List.mem_cons, List.not_mem_nil, or_false] at hx
    simp only [Step.run, buildText, Option.some.injEq] at h
    subst h
    exact st _ _ _ hx
  | sa =>
    simp only [Step.outs, List.mem_cons, List.not_mem_nil, or_false] at hx
    simp only [Step.run, buildSA, Option.bind_eq_bind, Option.bind_eq_some_iff, Option.pure_def, Option.some.injEq] at h
    obtain ⟨_, -, rfl⟩ := h
    exact st _ _ _ hx
  | bwt =>
    simp only [Step.outs, List.mem_cons, List.not_mem_nil, or_false, not_or] at hx
    obtain ⟨x1, x2, x3, x4, x5, x6, x7, x8, x9, x10⟩ := hx
    simp only [Step.run, buildBWT, Option.bind_eq_bind, Option.bind_eq_some_iff, Option.pure_def, Option.some.injEq] at h
    obtain ⟨_, -, _, -, _, -, rfl⟩ := h
    simp only [st _ _ _ x1, st _ _ _ x2, st _ _ _ x3, st _ _ _ x4, st _ _ _ x5, st _ _ _ x6, st _ _ _ x7, st _ _ _ x8, st _ _ _ x9, st _ _ _ x10]
  | rle =>
    simp only [Step.outs, List.mem_cons, List.not_mem_nil, or_false] at hx
    simp only [Step.run, buildRLE, Option.bind_eq_bind, Option.bind_eq_some_iff, Option.pure_def, Option.some.injEq] at h
    obtain ⟨_, -, _, -, rfl⟩ := h
    exact st _ _ _ hx
  | sortTails =>
    simp only [Step.outs, List.mem_cons, List.not_mem_nil, or_false] at hx
    simp only [Step.run, LegacyBuild.sortTails, Option.some.injEq] at h
    subst h
    exact st _ _ _ hx
  | sortHeads =>
    simp only [Step.outs, List.mem_cons, List.not_mem_nil, or_false, not_or] at hx
    simp only [Step.run, LegacyBuild.sortHeads, Option.bind_eq_bind, Option.bind_eq_some_iff, Option.pure_def, Option.some.injEq] at h
    obtain ⟨_, -, rfl⟩ := h
    rw [st _ _ _ hx.2, st _ _ _ hx.1]
  | tails s =>
    simp only [Step.outs, List.mem_cons, List.not_mem_nil, or_false, not_or] at hx
    simp only [Step.run, tailsSampling, Option.bind_eq_bind, Option.bind_eq_some_iff, Option.pure_def, Option.some.injEq] at h
    obtain ⟨_, -, _, -, _, -, rfl⟩ := h
    rw [st _ _ _ hx.2.2.2, st _ _ _ hx.2.2.1, st _ _ _ hx.2.1, st _ _ _ hx.1]
  | heads s =>
    simp only [Step.outs, List.mem_cons, List.not_mem_nil, or_false, not_or] at hx
    obtain ⟨x1, x2, x3, x4, x5, x6, x7⟩ := hx
    simp only [Step.run, headsSampling, Option.bind_eq_bind, Option.bind_eq_some_iff, Option.pure_def, Option.some.injEq] at h
    obtain ⟨_, -, rfl⟩ := h
    simp only [st _ _ _ x1, st _ _ _ x2, st _ _ _ x3, st _ _ _ x4, st _ _ _ x5, st _ _ _ x6, st _ _ _ x7]

theorem runSteps_frame {bytes : List Nat} {k : Nat} (l : List Step) : ∀ {D D' : LegacyDisk}, runSteps bytes k l D = some D' →
    ∀ {x : LegacyKey}, x ∉ l.flatMap Step.outs → D' x = D x := by
  induction l with
  | nil => intro D D' h x _; rw [runSteps, Option.some.injEq] at h; rw [h]
  | cons t l ih =>
    intro D D' h x hx
    rw [List.flatMap_cons, List.mem_append, not_or] at hx
    rw [runSteps, Option.bind_eq_bind, Option.bind_eq_some_iff] at h
    obtain ⟨D1, h1, h2⟩ := h
    rw [ih h2 hx.2, run_frame h1 hx.1]

theorem tails_fault {s : Nat} {D : LegacyDisk} (h : D.ints .headsSortedVec = []) : tailsSampling s D = none := by
  have : ∀ values sorted, tailsRound s values sorted [] = none := by
    intro values sorted
    unfold tailsRound
    cases e : decide (([] : List Nat).length = sorted.length) <;> simp [assertC]
  rw [tailsSampling, h, this]; rfl

/-- a BWT from elsewhere, without the heads and tails of this program: it stops -/
theorem main_foreign {bytes : List Nat} {k : Nat} {D : LegacyDisk} (h1 : D .bwt ≠ none) (h2 : D .headsPosVec = none)
    (h3 : D .headsSortedVec = none) (h4 : D (.tailsSampled 16) = none) : main bytes false k D = none := by
  let P : List Step := (if (D .text).isNone then [Step.text] else []) ++ (if (D .sa).isNone then [.sa] else []) ++
    (if (D .bwtRle).isNone then [.rle] else []) ++ (if (D .tailsSortedVec).isNone then [.sortTails] else [])
  let R : List Step := (rates.drop 1).map .tails ++ (if (D (.headsSampledBv 16)).isNone then rates.map .heads else [])
  have hr : registered false D = P ++ (.sortHeads :: .tails 4 :: R) := by
    rw [registered_eq]
    have hb : (D .bwt).isNone = false := by
      cases e : D .bwt with
      | none => exact absurd e h1
      | some v => rfl
    simp only [plan, Bool.or_false, hb, h3, h4, Option.isNone_none, if_true, Bool.false_eq_true, if_false, List.append_nil, P, R]
    simp [rates]
  have hP : LegacyKey.headsPosVec ∉ P.flatMap Step.outs := by
    simp only [P]
    split <;> split <;> split <;> split <;> decide
  rw [main, hr, runSteps_append]
  cases e : runSteps bytes k P D with
  | none => rfl
  | some D1 =>
    have g : D1.ints .headsPosVec = [] := by rw [LegacyDisk.ints, runSteps_frame P e hP, h2]
    rw [Option.bind_some, runSteps]
    cases e' : Step.run bytes k .sortHeads D1 with
    | none => rfl
    | some D2 =>
      have g2 : D2.ints .headsSortedVec = [] := by
        simp only [Step.run, LegacyBuild.sortHeads, Option.bind_eq_bind, Option.bind_eq_some_iff, Option.pure_def, Option.some.injEq, g] at e'
        obtain ⟨l, -, rfl⟩ := e'
        rfl
      simp only [Option.bind_eq_bind, Option.bind_some, runSteps]
      rw [show Step.run bytes k (.tails 4) D2 = none from tails_fault g2]
      rfl

theorem store_same (D : LegacyDisk) (a : LegacyKey) (v : LegacyVal) : D.store a v a = some v := if_pos rfl

theorem store_other (D : LegacyDisk) {a b : LegacyKey} {v : LegacyVal} (h : b ≠ a) : D.store a v b = D b := if_neg h

theorem runSteps_cons (bytes : List Nat) (k : Nat) (t : Step) (l : List Step) (D : LegacyDisk) :
    runSteps bytes k (t :: l) D = (t.run bytes k D).bind (runSteps bytes k l) := rfl

theorem sa_run {T : List Nat} {D : LegacyDisk} (h : D .text = some (.ints T)) : buildSA D = some (D.store .sa (.ints (suffixArray T))) := by
  rw [buildSA, ints_of h, h]; rfl

theorem bwt_run_none {T sa : List Nat} {k : Nat} {D : LegacyDisk} (h : D .text = some (.ints T)) (h' : D .sa = some (.ints sa)) (hn : bwtRound T sa = none) :
    buildBWT k D = none := by
  rw [buildBWT, ints_of h, ints_of h', hn, h', rounds_same]
  simp only [assertC, Option.isSome_some, if_true, Option.map_none, Option.bind_eq_bind, Option.bind_some, Option.bind_none]

theorem allSteps_three : allSteps = .text :: .sa :: .bwt :: allSteps.drop 3 := rfl

/-- a byte 255: the counting writes past the end of its table -/
theorem main_255 {bytes : List Nat} {k : Nat} {rebuild : Bool} {D : LegacyDisk} (hD : rebuild = true ∨ D = LegacyDisk.empty) (hT : IsText (textOf bytes))
    (hsa : IsSA (textOf bytes) (suffixArray (textOf bytes))) (h : 255 ∈ bytes) : main bytes rebuild k D = none := by
  have hr : registered rebuild D = allSteps := by
    rcases hD with rfl | rfl
    · exact registered_rebuild D
    · cases rebuild
      · exact registered_empty
      · exact registered_rebuild _
  have h255 : 255 ∈ textOf bytes := by
    rw [textOf, List.mem_append]
    refine Or.inl (List.mem_map.2 ⟨255, h, ?_⟩)
    simp
  obtain ⟨T, ht⟩ : ∃ T, textOf bytes = T := ⟨_, rfl⟩
  rw [ht] at hT hsa h255
  rw [main, hr, allSteps_three, runSteps_cons]
  rw [show Step.run bytes k .text D = some (D.store .text (.ints T)) by rw [Step.run, buildText, ht], Option.bind_some, runSteps_cons,
    show Step.run bytes k .sa (D.store .text (.ints T)) = some ((D.store .text (.ints T)).store .sa (.ints (suffixArray T))) from
      sa_run (store_same ..), Option.bind_some, runSteps_cons,
    show Step.run bytes k .bwt ((D.store .text (.ints T)).store .sa (.ints (suffixArray T))) = none from
      bwt_run_none ((store_other _ (by decide)).trans (store_same ..)) (store_same ..) (bwtRound_none hT hsa h255), Option.bind_none]

end LegacyBuild
end Sri
