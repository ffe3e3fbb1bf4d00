import Verif.Model.MarksPlot
import Verif.Props.ConstructBench
import Verif.Props.Bwt
/-! # C66: exporting the marks of an index -/
namespace Sri
set_option autoImplicit false

/-- the text positions of the first symbols of the runs of the BWT, in ascending order -/
def IsHeads (T sa l : List Nat) : Prop :=
  l.Pairwise (· < ·) ∧ ∀ p, p ∈ l ↔ ∃ j, j < T.length ∧ runStartsAt (bwtOf T sa) j = true ∧ p = prevPos T (sa.getD j 0)

/-- a part of the positions `heads`, in ascending order, such that every position left out is between two others that are at most `s` apart -/
def IsSampled (s : Nat) (heads l : List Nat) : Prop :=
  l.Pairwise (· < ·) ∧ (∀ p ∈ l, p ∈ heads) ∧ ∀ p ∈ heads, p ∉ l → ∃ a b, a ∈ l ∧ b ∈ l ∧ a < p ∧ p < b ∧ b - a ≤ s

/-- the cache has the samples of the runs of the BWT for a rate, as the classes SrCSA and SrCSASlim keep them -/
def Disk.HasMarks (D : Disk) (s : Nat) : Prop := (D (FileRef.file s (.subFirst, none))).isSome = true

/-- the cache has the text positions of the runs -/
def Disk.HasHeads (D : Disk) : Prop := (D ("bwt_run_first_text_pos".toList, none)).isSome = true

theorem wordBytes_length (k x : Nat) : (wordBytes k x).length = k := by
  induction k generalizing x with
  | zero => rfl
  | succ k ih => rw [wordBytes, List.length_cons, ih]

theorem wordOf_wordBytes (k x : Nat) (h : x < 256 ^ k) : wordOf (wordBytes k x) = x := by
  induction k generalizing x with
  | zero => rw [Nat.pow_zero, Nat.lt_one_iff] at h; subst h; rfl
  | succ k ih =>
    rw [wordBytes, wordOf, ih _ (by rw [Nat.div_lt_iff_lt_mul (by omega), ← Nat.pow_succ]; exact h)]
    omega

/-- **C66**, the tool and the reading of the script: the words that are read are the integers of the vector -/
theorem c66_words (l : List Nat) (h : ∀ x ∈ l, x < 2 ^ 64) : readData (l.flatMap (wordBytes 8)) = some l := by
  induction l with
  | nil => rfl
  | cons x l ih =>
    have h1 := wordOf_wordBytes 8 x (by have := h x List.mem_cons_self; omega)
    simp only [wordBytes] at h1
    have h2 := ih (fun y hy => h y (List.mem_cons_of_mem _ hy))
    rw [List.flatMap_cons]
    generalize l.flatMap (wordBytes 8) = rest at h2
    simp only [wordBytes, List.cons_append, List.nil_append, readData, h1, h2]
    rfl

example : readData ([0, 255, 256, 2 ^ 64 - 1].flatMap (wordBytes 8)) = some [0, 255, 256, 2 ^ 64 - 1] := c66_words _ (by decide)
-- a file cut in the middle of a word is an exception
example : readData [1, 0, 0, 0, 0, 0, 0, 0, 2, 0] = none := rfl

theorem sortBy_id_pairwise {l : List Nat} (h : l.Nodup) : (sortBy (fun x => x) l).Pairwise (· < ·) := by
  have h1 := sortBy_sorted (fun x : Nat => x) l
  have h2 : (sortBy (fun x => x) l).Nodup := (sortBy_perm _ _).nodup_iff.2 h
  exact (h1.and h2).imp (fun h => by omega)

section
variable {T sa : List Nat} {v : BaseVals T sa} {s : Nat}

theorem firstTextPos_eq (hT : IsText T) (hsa : IsSA T sa) :
    v.b.runs.firstTextPos = ((List.range T.length).filter (runStartsAt (bwtOf T sa))).map (fun j => prevPos T (sa.getD j 0)) := by
  have h1 := (base_eqs (v := v)).2.1
  rw [show constructBWT T sa = bwtOf T sa from rfl, c27_constructBWTRuns T sa hT hsa, Option.some_inj] at h1
  rw [← h1]

theorem firstTextPos_nodup (hT : IsText T) (hsa : IsSA T sa) : v.b.runs.firstTextPos.Nodup := by
  obtain ⟨b, T', hb, ok⟩ := base_build hT hsa
  have eb : v.b = b := Option.some_inj.1 (v.hb.symm.trans hb)
  rw [eb, ok.firstTextPos, headPos]
  exact List.Nodup.map_on (fun a ha b hb he => hd_inj (List.mem_range.1 ha) (List.mem_range.1 hb)
    (pv_inj ok.compact.isSA (hd_lt (List.mem_range.1 ha)) (hd_lt (List.mem_range.1 hb)) he)) List.nodup_range

theorem firstTextPos_lt (hT : IsText T) (hsa : IsSA T sa) : ∀ p ∈ v.b.runs.firstTextPos, p < T.length := by
  rw [firstTextPos_eq hT hsa]
  intro p hp
  obtain ⟨j, -, rfl⟩ := List.mem_map.1 hp
  exact Nat.mod_lt _ hT.pos

theorem heads_ok (hT : IsText T) (hsa : IsSA T sa) : IsHeads T sa (sortBy (fun x => x) v.b.runs.firstTextPos) := by
  refine ⟨sortBy_id_pairwise (firstTextPos_nodup hT hsa), fun p => ?_⟩
  rw [(sortBy_perm _ _).mem_iff, firstTextPos_eq hT hsa, List.mem_map]
  simp only [List.mem_filter, List.mem_range, and_assoc]
  exact ⟨fun ⟨j, h1, h2, h3⟩ => ⟨j, h1, h2, h3.symm⟩, fun ⟨j, h1, h2, h3⟩ => ⟨j, h1, h2, h3.symm⟩⟩

theorem sampled_ok (hT : IsText T) (hsa : IsSA T sa) (w : RateVals v s) :
    IsSampled s (sortBy (fun x => x) v.b.runs.firstTextPos) (sortBy (fun x => x) w.samplesF) := by
  have hnd := firstTextPos_nodup (v := v) hT hsa
  have hi := w.hidxF
  have hm := w.hsamplesF
  generalize v.b.runs.firstTextPos = heads at hnd hi hm
  unfold SrIndex.subsampleIdx computeSortedSampling at hi
  obtain ⟨a, -, hi⟩ := Option.bind_eq_some_iff.1 hi
  obtain ⟨l, -, hi⟩ := Option.bind_eq_some_iff.1 hi
  obtain ⟨b, -, hi⟩ := Option.bind_eq_some_iff.1 hi
  obtain ⟨ks, hks, hi⟩ := Option.bind_eq_some_iff.1 hi
  simp only [Option.pure_def, Option.some_inj] at hi
  have hb : ∀ x ∈ (sortIndices heads).reverse, x < heads.length := fun x hx => by
    rw [List.mem_reverse, (sortIndices_perm _).mem_iff, List.mem_range] at hx; exact hx
  obtain ⟨K, hK, hsub, -, hbr⟩ := computeSampling_desc s _ heads [a, b] hb (by
    rw [List.pairwise_reverse]; exact sortIndices_strict hnd)
  rw [hks, Option.some_inj] at hK
  subst hK
  have hin : ∀ i, i < heads.length → heads[i]? = some (heads.getD i 0) := fun i hi => by
    rw [List.getD_eq_getElem?_getD, List.getElem?_eq_getElem hi]; rfl
  have hidx : ∀ i ∈ w.idxF, i < heads.length := fun i h => by
    rw [← hi, (sortBy_perm _ _).mem_iff] at h
    exact hb i (hsub.subset h)
  have em : w.samplesF = w.idxF.map (fun i => heads.getD i 0) := by
    rw [PartOK.mapM_some (g := fun i => heads.getD i 0) (fun i h => hin i (hidx i h)), Option.some_inj] at hm
    exact hm.symm
  have hidn : w.idxF.Nodup := by
    rw [← hi, (sortBy_perm _ _).nodup_iff]
    exact hsub.nodup (by rw [List.nodup_reverse, (sortIndices_perm _).nodup_iff]; exact List.nodup_range)
  have hmem : ∀ p, p ∈ w.samplesF ↔ ∃ i ∈ ks, heads.getD i 0 = p := fun p => by
    rw [em, List.mem_map]
    constructor
    · rintro ⟨i, h, e⟩
      exact ⟨i, by rw [← hi, (sortBy_perm _ _).mem_iff] at h; exact h, e⟩
    · rintro ⟨i, h, e⟩
      exact ⟨i, by rw [← hi, (sortBy_perm _ _).mem_iff]; exact h, e⟩
  have hget : ∀ i, i < heads.length → heads.getD i 0 ∈ heads := fun i hi => List.mem_of_getElem? (hin i hi)
  refine ⟨sortBy_id_pairwise ?_, ?_, ?_⟩
  · rw [em]
    refine List.Nodup.map_on ?_ hidn
    intro i hi' j hj' he
    have h1 := hin i (hidx i hi')
    have h2 := hin j (hidx j hj')
    rw [List.getElem?_eq_getElem (hidx i hi'), Option.some_inj] at h1
    rw [List.getElem?_eq_getElem (hidx j hj'), Option.some_inj] at h2
    exact (List.Nodup.getElem_inj_iff hnd).1 (h1.trans (he.trans h2.symm))
  · intro p hp
    rw [(sortBy_perm _ _).mem_iff, em] at hp
    obtain ⟨i, h, rfl⟩ := List.mem_map.1 hp
    rw [(sortBy_perm _ _).mem_iff]
    exact hget i (hidx i h)
  · intro p hp hno
    rw [(sortBy_perm _ _).mem_iff] at hp
    rw [(sortBy_perm _ _).mem_iff] at hno
    obtain ⟨d, hd, e⟩ := List.getElem_of_mem hp
    have e' : heads.getD d 0 = p := by
      have := hin d hd
      rw [List.getElem?_eq_getElem hd, Option.some_inj] at this
      exact this.symm.trans e
    obtain ⟨x, y, hx, hy, h1, h2, h3⟩ := hbr d (by rw [List.mem_reverse, (sortIndices_perm _).mem_iff, List.mem_range]; exact hd)
      (fun h => hno ((hmem p).2 ⟨d, h, e'⟩))
    refine ⟨heads.getD x 0, heads.getD y 0, ?_, ?_, by rw [← e']; exact h1, by rw [← e']; exact h2, h3⟩
    · rw [(sortBy_perm _ _).mem_iff]; exact (hmem _).2 ⟨x, hx, rfl⟩
    · rw [(sortBy_perm _ _).mem_iff]; exact (hmem _).2 ⟨y, hy, rfl⟩

end


/-! ## The script on a cache -/

theorem processData_kept {key : Key} {D : Disk} {V : VecFiles} {l : List Nat} (hV : V key = none) (hD : D (key, none) = some (some (.ints l)))
    (hl : ∀ x ∈ l, x < 2 ^ 64) :
    processData key D V = ((fun k => if k = key then some (l.flatMap (wordBytes 8)) else V k), some (sortBy (fun x => x) l)) := by
  have e : exportVector key false D V = some (fun k => if k = key then some (l.flatMap (wordBytes 8)) else V k) := by
    unfold exportVector
    simp only [Bool.false_eq_true, if_false, hD]
    rfl
  unfold processData
  rw [hV, e]
  simp only [Option.isSome_none, Bool.false_eq_true, if_false, Option.getD_some, if_true, Option.bind_some, c66_words l hl, Option.map_some]

theorem processData_absent {key : Key} {D : Disk} {V : VecFiles} (hV : V key = none) (hD : D (key, none) = none) :
    processData key D V = ((fun k => if k = key then some [] else V k), some []) := by
  have e : exportVector key false D V = some (fun k => if k = key then some [] else V k) := by
    unfold exportVector
    simp only [Bool.false_eq_true, if_false, hD]
    rfl
  unfold processData
  rw [hV, e]
  simp only [Option.isSome_none, Bool.false_eq_true, if_false, Option.getD_some, if_true, Option.bind_some, readData, Option.map_some, sortBy]

theorem processData_there {key : Key} {D : Disk} {V : VecFiles} {bs : List Nat} (hV : V key = some bs) :
    processData key D V = (V, (readData bs).map (sortBy (fun x => x))) := by
  unfold processData
  rw [hV]
  simp only [Option.isSome_some, if_true, hV, Option.bind_some]

theorem plotKey_inj {s s' : Nat} (h : plotKey s = plotKey s') : s = s' := by
  have : FileRef.file s (.subFirst, none) = FileRef.file s' (.subFirst, none) := Prod.ext h rfl
  exact (file_inj this).2 rfl


/-- what the tool finds for the key of a rate -/
def Finds (D : Disk) (key : Key) (l : List Nat) : Prop :=
  (D (key, none) = none ∧ l = []) ∨ (D (key, none) = some (some (.ints l)) ∧ ∀ x ∈ l, x < 2 ^ 64)

theorem processData_new {key : Key} {D : Disk} {V : VecFiles} {l : List Nat} (hV : V key = none) (h : Finds D key l) :
    processData key D V = ((fun k => if k = key then some (l.flatMap (wordBytes 8)) else V k), some (sortBy (fun x => x) l)) := by
  rcases h with ⟨h, rfl⟩ | ⟨h, h'⟩
  · exact processData_absent hV h
  · exact processData_kept hV h h'

theorem processRates_new {D : Disk} (st : Nat → List Nat) : ∀ (rates : List Nat) (V : VecFiles), rates.Nodup → (∀ s ∈ rates, V (plotKey s) = none) →
    (∀ s ∈ rates, Finds D (plotKey s) (st s)) →
    ∃ V', processRates D rates V = (V', some (rates.map (fun s => (s, sortBy (fun x => x) (st s))))) ∧
      (∀ s ∈ rates, V' (plotKey s) = some ((st s).flatMap (wordBytes 8))) ∧ ∀ k, (∀ s ∈ rates, plotKey s ≠ k) → V' k = V k
  | [], V, _, _, _ => ⟨V, rfl, by simp, fun _ _ => rfl⟩
  | s :: rates, V, hn, hV, hf => by
    obtain ⟨hs, hn⟩ := List.nodup_cons.1 hn
    have e := processData_new (hV s List.mem_cons_self) (hf s List.mem_cons_self)
    obtain ⟨V', h1, h2, h3⟩ := processRates_new st rates (fun k => if k = plotKey s then some ((st s).flatMap (wordBytes 8)) else V k) hn
      (fun s' hs' => by
        have : plotKey s' ≠ plotKey s := fun h => hs (plotKey_inj h ▸ hs')
        simp only [if_neg this]
        exact hV s' (List.mem_cons_of_mem _ hs'))
      (fun s' hs' => hf s' (List.mem_cons_of_mem _ hs'))
    refine ⟨V', ?_, ?_, ?_⟩
    · rw [processRates, e]
      simp only [h1, Option.map_some, List.map_cons]
    · intro s' hs'
      rcases List.mem_cons.1 hs' with rfl | hs'
      · rw [h3 _ (fun s'' hs'' h => hs (by rw [← plotKey_inj h]; exact hs'')), if_pos rfl]
      · exact h2 s' hs'
    · intro k hk
      rw [h3 k (fun s' hs' => hk s' (List.mem_cons_of_mem _ hs')), if_neg (fun h => hk s List.mem_cons_self h.symm)]

theorem processRates_there {D : Disk} (st : Nat → List Nat) : ∀ (rates : List Nat) (V : VecFiles),
    (∀ s ∈ rates, V (plotKey s) = some ((st s).flatMap (wordBytes 8))) → (∀ s ∈ rates, ∀ x ∈ st s, x < 2 ^ 64) →
    processRates D rates V = (V, some (rates.map (fun s => (s, sortBy (fun x => x) (st s)))))
  | [], V, _, _ => rfl
  | s :: rates, V, hV, hl => by
    rw [processRates, processData_there (hV s List.mem_cons_self), c66_words _ (hl s List.mem_cons_self)]
    simp only [Option.map_some, processRates_there st rates V (fun s' hs' => hV s' (List.mem_cons_of_mem _ hs')) (fun s' hs' => hl s' (List.mem_cons_of_mem _ hs')), List.map_cons]

theorem plotKey_ne (s : Nat) : plotKey s ≠ "bwt_run_first_text_pos".toList := by
  intro h
  have : FileRef.file s (.subFirst, none) = FileRef.file s (.firstTextPos, none) := Prod.ext h rfl
  exact absurd (file_inj this).1 (by decide)

theorem plotRates_nodup : plotRates.Nodup := by decide

/-- the data of a collection whose files are not there, and once they are -/
theorem processCollection_new {D : Disk} {heads : List Nat} (st : Nat → List Nat) (hh : Finds D "bwt_run_first_text_pos".toList heads)
    (hf : ∀ s ∈ plotRates, Finds D (plotKey s) (st s)) (hl : ∀ x ∈ heads, x < 2 ^ 64) (hl' : ∀ s ∈ plotRates, ∀ x ∈ st s, x < 2 ^ 64) :
    ∃ V', processCollection D VecFiles.empty =
        (V', some ((0, sortBy (fun x => x) heads) :: plotRates.map (fun s => (s, sortBy (fun x => x) (st s))))) ∧
      ∀ D', processCollection D' V' = (V', some ((0, sortBy (fun x => x) heads) :: plotRates.map (fun s => (s, sortBy (fun x => x) (st s))))) := by
  have e := processData_new (V := VecFiles.empty) rfl hh
  obtain ⟨V', h1, h2, h3⟩ := processRates_new (D := D) st plotRates
    (fun k => if k = "bwt_run_first_text_pos".toList then some (heads.flatMap (wordBytes 8)) else VecFiles.empty k) plotRates_nodup
    (fun s _ => if_neg (plotKey_ne s)) hf
  have h4 : V' "bwt_run_first_text_pos".toList = some (heads.flatMap (wordBytes 8)) := by
    rw [h3 _ (fun s _ => plotKey_ne s), if_pos rfl]
  refine ⟨V', ?_, fun D' => ?_⟩
  · unfold processCollection
    rw [e]
    simp only [h1, Option.map_some]
  · unfold processCollection
    rw [processData_there h4, c66_words _ hl]
    simp only [Option.map_some, processRates_there st plotRates V' h2 hl']

theorem lastValues_some : ∀ (data : List (Nat × List Nat)), (∀ q ∈ data, q.2 ≠ []) → ∃ l, data.mapM (fun q => lastValue q.2) = some l
  | [], _ => ⟨[], rfl⟩
  | q :: data, h => by
    obtain ⟨l, hl⟩ := lastValues_some data (fun q hq => h q (List.mem_cons_of_mem _ hq))
    refine ⟨q.2.getLast (h q List.mem_cons_self) :: l, ?_⟩
    rw [List.mapM_cons, hl, lastValue, List.getLast?_eq_getLast_of_ne_nil (h q List.mem_cons_self)]
    rfl

theorem lastValues_none : ∀ (data : List (Nat × List Nat)), (∃ q ∈ data, q.2 = []) → data.mapM (fun q => lastValue q.2) = none
  | [], h => by obtain ⟨_, h, _⟩ := h; cases h
  | q :: data, h => by
    rw [List.mapM_cons]
    by_cases hq : q.2 = []
    · rw [lastValue, hq]; rfl
    · have : ∃ q ∈ data, q.2 = [] := by
        obtain ⟨q', h1, h2⟩ := h
        rcases List.mem_cons.1 h1 with rfl | h1
        · exact absurd h2 hq
        · exact ⟨q', h1, h2⟩
      rw [lastValues_none data this]
      cases lastValue q.2 <;> rfl

theorem plotMarks_some {D : Disk} {V V' : VecFiles} {data : List (Nat × List Nat)} (h : processCollection D V = (V', some data)) (hd : ∀ q ∈ data, q.2 ≠ []) :
    plotMarks D V = (V', some data) := by
  obtain ⟨l, hl⟩ := lastValues_some data hd
  unfold plotMarks
  rw [h]
  simp only [Option.bind_eq_bind, Option.bind_some, hl, Option.pure_def]

theorem plotMarks_none {D : Disk} {V V' : VecFiles} {data : List (Nat × List Nat)} (h : processCollection D V = (V', some data)) (hd : ∃ q ∈ data, q.2 = []) :
    plotMarks D V = (V', none) := by
  unfold plotMarks
  rw [h]
  simp only [Option.bind_eq_bind, Option.bind_some, lastValues_none data hd, Option.bind_none]

section
variable {bytes : List Nat}

/-- what the tool finds in a cache with a clean history -/
theorem finds (h0 : ∀ c ∈ bytes, c ≠ 0) (hn : bytes.length + 1 < 2^64) {v : BaseVals (bytes ++ [0]) (suffixArray (bytes ++ [0]))} (w : ∀ s, RateVals v s) {P : Process}
    (hP : CacheHistory bytes CleanDisk (Process.fresh Disk.empty) P) :
    (P.disk.HasHeads → Finds P.disk "bwt_run_first_text_pos".toList v.b.runs.firstTextPos) ∧
    (¬ P.disk.HasHeads → Finds P.disk "bwt_run_first_text_pos".toList []) ∧
    (∀ s, P.disk.HasMarks s → Finds P.disk (plotKey s) (w s).samplesF) ∧ ∀ s, ¬ P.disk.HasMarks s → Finds P.disk (plotKey s) [] := by
  have hT : IsText (bytes ++ [0]) := ⟨bytes, rfl, h0⟩
  have hsa := suffixArray_isSA (bytes ++ [0])
  obtain ⟨hs, hc⟩ := history_sound (v := v) (w := w) (input_of_bytes h0) hP
  have hlt : ∀ x ∈ v.b.runs.firstTextPos, x < 2 ^ 64 := fun x hx => by
    have := firstTextPos_lt hT hsa x hx
    rw [List.length_append, List.length_singleton] at this
    omega
  have hr : ∀ s (r : FileRef) l, ideal v w s r = some (.ints l) → (P.disk (r.file s)).isSome = true → P.disk (r.file s) = some (some (.ints l)) := by
    intro s r l hi he
    obtain ⟨c, hc'⟩ := Option.isSome_iff_exists.1 he
    cases c with
    | none => exact absurd hc' (hs.whole _)
    | some x =>
      have := hs.right s r x hc'
      rw [hi, Option.some_inj] at this
      rw [hc', this]
  refine ⟨fun h => Or.inr ⟨?_, hlt⟩, fun h => Or.inl ⟨Option.not_isSome_iff_eq_none.1 h, rfl⟩, fun s h => Or.inr ⟨?_, ?_⟩,
    fun s h => Or.inl ⟨Option.not_isSome_iff_eq_none.1 h, rfl⟩⟩
  · exact hr 0 (.firstTextPos, none) _ rfl h
  · exact hr s (.subFirst, none) _ rfl h
  · intro x hx
    have h1 := (sampled_ok hT hsa (w s)).2.1 x ((sortBy_perm _ _).mem_iff.2 hx)
    exact hlt x ((sortBy_perm _ _).mem_iff.1 h1)

/-- **C66** (partial): on a cache with any clean history that has the text positions of the runs and those of the kept runs for every rate, the script
    plots exactly these, in ascending order; and it does so again from the files it has left, whatever happens to the cache. What is missing are
    the caches without the kept runs of a rate, see `c66_missing_violation`. -/
theorem c66_plot_partial (bytes : List Nat) (h0 : ∀ c ∈ bytes, c ≠ 0) (hn : bytes.length + 1 < 2^64) (P : Process)
    (hP : CacheHistory bytes CleanDisk (Process.fresh Disk.empty) P) (hh : P.disk.HasHeads) (hm : ∀ s ∈ plotRates, P.disk.HasMarks s) :
    ∃ (heads : List Nat) (kept : Nat → List Nat) (V : VecFiles), plotMarks P.disk VecFiles.empty = (V, some ((0, heads) :: plotRates.map (fun s => (s, kept s)))) ∧
      (∀ D', plotMarks D' V = (V, some ((0, heads) :: plotRates.map (fun s => (s, kept s))))) ∧
      IsHeads (bytes ++ [0]) (suffixArray (bytes ++ [0])) heads ∧ ∀ s, IsSampled s heads (kept s) := by
  obtain ⟨v, ⟨w⟩⟩ := ideal_exists h0 hn
  have hT : IsText (bytes ++ [0]) := ⟨bytes, rfl, h0⟩
  have hsa := suffixArray_isSA (bytes ++ [0])
  obtain ⟨f1, -, f2, -⟩ := finds h0 hn w hP
  have hheads := heads_ok (v := v) hT hsa
  have hkept := fun s => sampled_ok hT hsa (w s)
  have hlt : ∀ x ∈ v.b.runs.firstTextPos, x < 2 ^ 64 := fun x hx => by
    have := firstTextPos_lt hT hsa x hx
    rw [List.length_append, List.length_singleton] at this
    omega
  obtain ⟨V, h1, h2⟩ := processCollection_new (fun s => (w s).samplesF) (f1 hh) (fun s hs => f2 s (hm s hs)) hlt (fun s _ x hx => by
    have h1 := (hkept s).2.1 x ((sortBy_perm _ _).mem_iff.2 hx)
    exact hlt x ((sortBy_perm _ _).mem_iff.1 h1))
  generalize sortBy (fun x => x) v.b.runs.firstTextPos = heads at h1 h2 hheads hkept
  have hne : ∃ p, p ∈ heads := ⟨_, (hheads.2 _).2 ⟨0, hT.pos, rfl, rfl⟩⟩
  have hd : ∀ q ∈ (0, heads) :: plotRates.map (fun s => (s, sortBy (fun x => x) (w s).samplesF)), q.2 ≠ [] := by
    intro q hq
    rcases List.mem_cons.1 hq with rfl | hq
    · exact List.ne_nil_of_mem hne.choose_spec
    · obtain ⟨s, -, rfl⟩ := List.mem_map.1 hq
      intro he
      change sortBy (fun x => x) (w s).samplesF = [] at he
      obtain ⟨p, hp⟩ := hne
      obtain ⟨a, _, ha, _⟩ := (hkept s).2.2 p hp (by rw [he]; simp)
      rw [he] at ha; cases ha
  exact ⟨heads, _, V, plotMarks_some h1 hd, fun D' => plotMarks_some (h2 D') hd, hheads, hkept⟩

/-- **C66** violated: without the kept runs of one of its rates the script fails; the tool has then left a file without a value, and because of it
    the script fails for ever after, whatever is built. For every text. -/
theorem c66_missing_violation (bytes : List Nat) (h0 : ∀ c ∈ bytes, c ≠ 0) (hn : bytes.length + 1 < 2^64) (P : Process)
    (hP : CacheHistory bytes CleanDisk (Process.fresh Disk.empty) P) (s : Nat) (hs : s ∈ plotRates) (hm : ¬ P.disk.HasMarks s) :
    ∃ V, plotMarks P.disk VecFiles.empty = (V, none) ∧ ∀ D', plotMarks D' V = (V, none) := by
  obtain ⟨v, ⟨w⟩⟩ := ideal_exists h0 hn
  have hT : IsText (bytes ++ [0]) := ⟨bytes, rfl, h0⟩
  have hsa := suffixArray_isSA (bytes ++ [0])
  obtain ⟨f1, f2, f3, f4⟩ := finds h0 hn w hP
  have hlt : ∀ x ∈ v.b.runs.firstTextPos, x < 2 ^ 64 := fun x hx => by
    have := firstTextPos_lt hT hsa x hx
    rw [List.length_append, List.length_singleton] at this
    omega
  have g1 : ∃ heads, Finds P.disk "bwt_run_first_text_pos".toList heads ∧ ∀ x ∈ heads, x < 2 ^ 64 := by
    by_cases h : P.disk.HasHeads
    · exact ⟨_, f1 h, hlt⟩
    · exact ⟨_, f2 h, by simp⟩
  have g2 : ∃ st : Nat → List Nat, (∀ s, Finds P.disk (plotKey s) (st s) ∧ ∀ x ∈ st s, x < 2 ^ 64) ∧ st s = [] := by
    classical
    refine ⟨fun s => if P.disk.HasMarks s then (w s).samplesF else [], fun s => ?_, if_neg hm⟩
    dsimp only
    split
    · rename_i h
      refine ⟨f3 s h, fun x hx => ?_⟩
      have h1 := (sampled_ok hT hsa (w s)).2.1 x ((sortBy_perm _ _).mem_iff.2 hx)
      exact hlt x ((sortBy_perm _ _).mem_iff.1 h1)
    · rename_i h
      exact ⟨f4 s h, by simp⟩
  obtain ⟨heads, g1, g1'⟩ := g1
  obtain ⟨st, g2, g3⟩ := g2
  obtain ⟨V, h1, h2⟩ := processCollection_new st g1 (fun s _ => (g2 s).1) g1' (fun s _ => (g2 s).2)
  have hd : ∃ q ∈ (0, sortBy (fun x => x) heads) :: plotRates.map (fun s => (s, sortBy (fun x => x) (st s))), q.2 = [] :=
    ⟨(s, sortBy (fun x => x) (st s)), List.mem_cons_of_mem _ (List.mem_map.2 ⟨s, hs, rfl⟩), by rw [g3]; rfl⟩
  exact ⟨V, plotMarks_none h1 hd, fun D' => plotMarks_none (h2 D') hd⟩

/-- the files after the benchmarks of a list -/
theorem bench_files (h0 : ∀ c ∈ bytes, c ≠ 0) (hn : bytes.length + 1 < 2^64) (b : BvKind) (iters : IndexType → Nat → Nat) :
    ∀ (l : List (IndexType × Nat)) (P : Process) (D : Disk) (cs : List ConstructCounters), CacheHistory bytes CleanDisk (Process.fresh Disk.empty) P →
      runBenchmarks bytes b iters l P.disk = some (D, cs) →
      ∃ P', P'.disk = D ∧ CacheHistory bytes CleanDisk (Process.fresh Disk.empty) P' ∧ (∀ f, (P.disk f).isSome = true → (D f).isSome = true) ∧
        (∀ q ∈ l, ∀ r ∈ outputsOf (program q.1 b), (D (r.file q.2)).isSome = true) ∧
        ∀ f, (D f).isSome = true → (P.disk f).isSome = true ∨ ∃ q ∈ l, ∃ r ∈ outputsOf (program q.1 b), r.file q.2 = f
  | [], P, D, cs, hP, h => by
    rw [runBenchmarks, Option.some_inj, Prod.mk.injEq] at h
    exact ⟨P, h.1, hP, fun f hf => h.1 ▸ hf, by simp, fun f hf => Or.inl (h.1 ▸ hf)⟩
  | (t, s) :: rest, P, D, cs, hP, h => by
    obtain ⟨v, ⟨w⟩⟩ := ideal_exists h0 hn
    rw [runBenchmarks] at h
    obtain ⟨⟨P', c⟩, h1, h⟩ := Option.bind_eq_some_iff.1 h
    obtain ⟨⟨D', cs'⟩, h2, h⟩ := Option.bind_eq_some_iff.1 h
    simp only [Option.pure_def, Option.some_inj, Prod.mk.injEq] at h
    obtain ⟨rfl, -⟩ := h
    obtain ⟨P'', g1, g2, -, g4, g5, g6⟩ := rounds_run (v := v) (w := w) (input_of_bytes h0) t b s (iters t s) (Process.fresh P.disk) (.restart hP)
    have e : P'' = P' := by
      unfold benchConstruct at h1
      obtain ⟨Q, k1, k2⟩ := Option.bind_eq_some_iff.1 h1
      rw [g1, Option.some_inj] at k1
      subst k1
      split at k2
      · obtain ⟨_, -, k2⟩ := Option.bind_eq_some_iff.1 k2
        simp only [Option.pure_def, Option.some_inj, Prod.mk.injEq] at k2
        exact k2.1
      · obtain ⟨_, -, k2⟩ := Option.bind_eq_some_iff.1 k2
        obtain ⟨_, -, k2⟩ := Option.bind_eq_some_iff.1 k2
        simp only [Option.pure_def, Option.some_inj, Prod.mk.injEq] at k2
        exact k2.1
    subst e
    obtain ⟨Q, q1, q2, q3, q4, q5⟩ := bench_files h0 hn b iters rest P'' D' cs' g2 h2
    refine ⟨Q, q1, q2, fun f hf => q3 f (g5 f hf), ?_, ?_⟩
    · intro q hq r hr
      rcases List.mem_cons.1 hq with rfl | hq
      · exact q3 _ (g4 r hr)
      · exact q4 q hq r hr
    · intro f hf
      rcases q5 f hf with hf | ⟨q, hq, k⟩
      · rcases g6 f hf with hf | k
        · exact Or.inl hf
        · exact Or.inr ⟨(t, s), List.mem_cons_self, k⟩
      · exact Or.inr ⟨q, List.mem_cons_of_mem _ hq, k⟩

theorem marks_written (b : BvKind) : ((.subFirst, none) : FileRef) ∈ outputsOf (program .srCSA b) ∧ ((.firstTextPos, none) : FileRef) ∈ outputsOf (program .srCSA b) := by
  cases b <;> decide +kernel

theorem ri_no_marks (t : IndexType) (b : BvKind) (h : t ∈ [IndexType.rIndex, .srIndex, .srIndexValidMark, .srIndexValidArea]) :
    ((.subFirst, none) : FileRef) ∉ outputsOf (program t b) := by
  simp only [List.mem_cons, List.not_mem_nil, or_false] at h
  rcases h with rfl | rfl | rfl | rfl <;> cases b <;> decide +kernel

/-- **C66** (partial): after the program that builds the SR-CSA classes for the rates of the script, on any clean cache, the script plots the marks -/
theorem c66_csa_program_partial (bytes : List Nat) (h0 : ∀ c ∈ bytes, c ≠ 0) (hn : bytes.length + 1 < 2^64) (P : Process)
    (hP : CacheHistory bytes CleanDisk (Process.fresh Disk.empty) P) (b : BvKind) (iters : IndexType → Nat → Nat) :
    ∃ D cs V, ∃ (heads : List Nat) (kept : Nat → List Nat), runBenchmarks bytes b iters (csaBenchmarks plotRates) P.disk = some (D, cs) ∧
      plotMarks D VecFiles.empty = (V, some ((0, heads) :: plotRates.map (fun s => (s, kept s)))) ∧
      IsHeads (bytes ++ [0]) (suffixArray (bytes ++ [0])) heads ∧ ∀ s, IsSampled s heads (kept s) := by
  obtain ⟨D, cs, h1, -⟩ := c64_csa_program bytes h0 hn P hP b iters plotRates
  obtain ⟨Q, rfl, q2, -, q4, -⟩ := bench_files h0 hn b iters _ P D cs hP h1
  have hin : ∀ s ∈ plotRates, (IndexType.srCSA, s) ∈ csaBenchmarks plotRates := by
    intro s hs
    simp only [csaBenchmarks, List.mem_append, List.mem_map, Prod.mk.injEq, true_and, exists_eq_right, hs, or_true, true_or]
  obtain ⟨heads, kept, V, g1, -, g2, g3⟩ := c66_plot_partial bytes h0 hn Q q2 (q4 _ (hin 4 (by decide)) (.firstTextPos, none) (marks_written b).2)
    (fun s hs => q4 _ (hin s hs) (.subFirst, none) (marks_written b).1)
  exact ⟨_, cs, V, heads, kept, h1, g1, g2, g3⟩

/-- **C66** violated: after the program that builds the SR-index classes, for any rates, in a new directory, the script fails, for every text; and it
    still fails when the files it asks for have been built -/
theorem c66_ri_program_violation (bytes : List Nat) (h0 : ∀ c ∈ bytes, c ≠ 0) (hn : bytes.length + 1 < 2^64) (b : BvKind)
    (iters : IndexType → Nat → Nat) (rates : List Nat) :
    ∃ D cs V, runBenchmarks bytes b iters (riBenchmarks rates) Disk.empty = some (D, cs) ∧ plotMarks D VecFiles.empty = (V, none) ∧
      ∀ D', plotMarks D' V = (V, none) := by
  obtain ⟨D, cs, h1, -⟩ := c64_ri_program bytes h0 hn _ .start b iters rates _ (List.Sublist.refl _)
  obtain ⟨Q, rfl, q2, -, -, q5⟩ := bench_files h0 hn b iters _ _ D cs .start h1
  have hno : ¬ Q.disk.HasMarks 4 := by
    intro h
    rcases q5 _ h with h | ⟨q, hq, r, hr, e⟩
    · cases h
    · have ht : q.1 ∈ [IndexType.rIndex, .srIndex, .srIndexValidMark, .srIndexValidArea] := by
        simp only [riBenchmarks, List.mem_append, List.mem_map, List.mem_singleton] at hq
        rcases hq with ((rfl | ⟨_, -, rfl⟩) | ⟨_, -, rfl⟩) | ⟨_, -, rfl⟩ <;> simp
      rw [(file_inj e).1] at hr
      exact ri_no_marks _ b ht hr
  obtain ⟨V, g1, g2⟩ := c66_missing_violation bytes h0 hn Q q2 4 (by decide) hno
  exact ⟨_, cs, V, h1, g1, g2⟩

/-- **C66** violated: the option `--hash_type` names another file to read but not another file to write. For the positions of the runs there is no file with
    a hash, so the tool replaces the exported positions by nothing. -/
theorem c66_hash_violation (bytes : List Nat) (h0 : ∀ c ∈ bytes, c ≠ 0) (hn : bytes.length + 1 < 2^64) (P : Process)
    (hP : CacheHistory bytes CleanDisk (Process.fresh Disk.empty) P) (hh : P.disk.HasHeads) (V : VecFiles) :
    ∃ V' V'' bs, exportVector "bwt_run_first_text_pos".toList false P.disk V = some V' ∧ V' "bwt_run_first_text_pos".toList = some bs ∧ bs ≠ [] ∧
      exportVector "bwt_run_first_text_pos".toList true P.disk V' = some V'' ∧ V'' "bwt_run_first_text_pos".toList = some [] := by
  obtain ⟨v, ⟨w⟩⟩ := ideal_exists h0 hn
  have hT : IsText (bytes ++ [0]) := ⟨bytes, rfl, h0⟩
  have hsa := suffixArray_isSA (bytes ++ [0])
  obtain ⟨hs, -⟩ := history_sound (v := v) (w := w) (input_of_bytes h0) hP
  have hf : P.disk ("bwt_run_first_text_pos".toList, some .ints) = none := by
    cases hd : P.disk ("bwt_run_first_text_pos".toList, some .ints) with
    | none => rfl
    | some c =>
      cases c with
      | none => exact absurd hd (hs.whole _)
      | some x => exact absurd (hs.right 0 (.firstTextPos, some .ints) x hd) (by simp [ideal, idealInts])
  obtain ⟨f1, -⟩ := finds h0 hn w hP
  rcases f1 hh with ⟨h, -⟩ | ⟨h, -⟩
  · rw [Disk.HasHeads, h] at hh; cases hh
  · refine ⟨fun k => if k = "bwt_run_first_text_pos".toList then some (v.b.runs.firstTextPos.flatMap (wordBytes 8)) else V k,
      fun k => if k = "bwt_run_first_text_pos".toList then some [] else if k = "bwt_run_first_text_pos".toList then some (v.b.runs.firstTextPos.flatMap (wordBytes 8)) else V k,
      v.b.runs.firstTextPos.flatMap (wordBytes 8), ?_, if_pos rfl, ?_, ?_, if_pos rfl⟩
    · unfold exportVector
      simp only [Bool.false_eq_true, if_false, h]
      rfl
    · have : prevPos (bytes ++ [0]) ((suffixArray (bytes ++ [0])).getD 0 0) ∈ v.b.runs.firstTextPos :=
        (sortBy_perm _ _).mem_iff.1 (((heads_ok (v := v) hT hsa).2 _).2 ⟨0, hT.pos, rfl, rfl⟩)
      intro he
      rw [List.flatMap_eq_nil_iff] at he
      have := he _ this
      rw [wordBytes] at this
      cases this
    · unfold exportVector
      simp only [if_true, hf]
      rfl

end

/-! ## Non-vacuity -/

-- a text of 20 symbols; all marks, and the marks that the rates keep
example : (((runBenchmarks [1, 2, 3, 1, 2, 3, 1, 2, 1, 2, 3, 3, 3, 1, 1, 2, 2, 3, 1, 3] .sd (fun _ _ => 0) (plotRates.map (fun s => (.srCSA, s))) Disk.empty).map
    (fun q => (plotMarks q.1 VecFiles.empty).2))) = some (some [(0, [2, 4, 6, 7, 8, 9, 10, 11, 13, 15, 17, 19, 20]), (4, [2, 4, 8, 9, 13, 17, 20]),
      (8, [2, 8, 13, 20]), (16, [2, 8, 13, 20]), (32, [2, 8, 13, 20]), (64, [2, 8, 13, 20])]) := by decide +kernel
-- after the SR-index classes only
example : (((runBenchmarks [1, 2, 3, 1, 2, 3, 1, 2, 1, 2, 3] .sd (fun _ _ => 0) (riBenchmarks [4]) Disk.empty).map
    (fun q => (plotMarks q.1 VecFiles.empty).2))) = some none := by decide +kernel

end Sri
