import Verif.Proofs.Race
import Verif.Props.CrashPoints
/-! # C75: processes that construct indexes of the same data set in the same directory at the same time -/
namespace Sri
set_option autoImplicit false

/-- **C75** (partial): take a directory as constructions leave it, and any number of processes that each construct an index of the same text
    there, of any types and rates. Under every schedule in which no process begins a step while another one is in the midst of writing a file
    that the step looks for, reads or writes, no process fails. And a process that is done, of whose files none is being written at the
    moment, has an index that loads, in this process or in a new one, as the very index that a construction alone gives, with exact answers.
    What is missing are the other schedules; for those the property is false, see `c75_open_violation`, `c75_psi_violation` and
    `c75_silent_violation`. -/
theorem c75_apart_partial {α : Type} (K : Codec α) (bytes : List Nat) (h0 : ∀ c ∈ bytes, c ≠ 0) (hn : bytes.length + 1 < 2^64) (P : Process)
    (hP : CacheHistory bytes CleanDisk (Process.fresh Disk.empty) P) (jobs : List (IndexType × BvKind × Nat)) (schedule : List Nat)
    (hA : Apart bytes schedule (Race.start P.disk jobs)) (R : Race) (hR : R = (Race.start P.disk jobs).run bytes schedule)
    (i : Nat) (t : IndexType) (b : BvKind) (s : Nat) (hj : jobs[i]? = some (t, b, s)) :
    ∃ x, R.workers[i]? = some x ∧ x.failed = false ∧
      (x.done = true → (∀ y ∈ R.workers, ∀ st ∈ program t b, ∀ r ∈ st.outputs.flatten, r.file s ∉ y.holds) →
        ∀ P', P' = Process.fresh R.disk ∨ P' = ⟨R.disk, x.fileMap⟩ →
          ∃ q, loadIn K t b s P' = some q ∧ indexFromBytes t bytes s = some q ∧
            ∀ X, X ≠ [] → (∀ c ∈ X, c ∈ bytes) → ∃ i j l, q.count X = some (i, j) ∧ q.locate X = some l ∧ i ≤ j ∧
              j - i = (occurrences X bytes).length ∧ l.Perm (occurrences X bytes)) := by
  obtain ⟨v, ⟨w⟩⟩ := ideal_exists h0 hn
  have hin := input_of_bytes h0
  obtain ⟨hs, hc⟩ := history_sound (v := v) (w := w) hin hP
  obtain ⟨V, hV⟩ := race_run (v := v) (w := w) hin schedule _ _ (race_start hs.right hc jobs) hA
  rw [← hR] at hV
  obtain ⟨x, hx, rfl, rfl, rfl⟩ := job_at (bytes := bytes) P.disk jobs schedule hj
  rw [← hR] at hx
  refine ⟨x, hx, (hV.each i x hx).alive, ?_⟩
  intro hd hq P' hP'
  have hq' : ∀ (j : Nat) (y : Worker), R.workers[j]? = some y → ∀ r ∈ outputsOf (program x.type x.bits),
      r.file x.rate ∉ y.pending.map CacheEvent.target := by
    intro j y hy r hr hf
    obtain ⟨st, hst, hr'⟩ := List.mem_flatMap.1 hr
    exact hq y (List.mem_of_getElem? hy) st hst r hr' (List.mem_append_left _ hf)
  refine hasIndex_load K h0 hn ?_
  rcases hP' with rfl | rfl
  · exact race_index hV hx hd hq' (fun _ _ h => by cases h)
  · exact race_index hV hx hd hq' (hV.each i x hx).map

/-- **C75** (partial): processes at different rates. If the files without a rate in their names are there that the constructions need (the
    text, the suffix array, the runs and so on), then processes that construct indexes at pairwise different rates, of any types, do not get
    in each other's way under any schedule: no process fails; each of them, given enough moves after any schedule, is done; and once it is
    done its index loads as the very index that a construction alone gives, with exact answers, while the others are still at work. -/
theorem c75_rates_partial {α : Type} (K : Codec α) (bytes : List Nat) (h0 : ∀ c ∈ bytes, c ≠ 0) (hn : bytes.length + 1 < 2^64) (P : Process)
    (hP : CacheHistory bytes CleanDisk (Process.fresh Disk.empty) P) (jobs : List (IndexType × BvKind × Nat))
    (hrates : (jobs.map (fun j => j.2.2)).Nodup)
    (hbase : ∀ j ∈ jobs, ∀ st ∈ program j.1 j.2.1, ∀ r ∈ st.outputs.flatten, r.1.key.1 = false → (P.disk (r.file j.2.2)).isSome = true)
    (schedule : List Nat) (R : Race) (hR : R = (Race.start P.disk jobs).run bytes schedule)
    (i : Nat) (t : IndexType) (b : BvKind) (s : Nat) (hj : jobs[i]? = some (t, b, s)) :
    ∃ x, R.workers[i]? = some x ∧ x.failed = false ∧
      (∃ n y, (R.run bytes (List.replicate n i)).workers[i]? = some y ∧ y.done = true) ∧
      (x.done = true → ∀ P', P' = Process.fresh R.disk ∨ P' = ⟨R.disk, x.fileMap⟩ →
          ∃ q, loadIn K t b s P' = some q ∧ indexFromBytes t bytes s = some q ∧
            ∀ X, X ≠ [] → (∀ c ∈ X, c ∈ bytes) → ∃ i j l, q.count X = some (i, j) ∧ q.locate X = some l ∧ i ≤ j ∧
              j - i = (occurrences X bytes).length ∧ l.Perm (occurrences X bytes)) := by
  obtain ⟨v, ⟨w⟩⟩ := ideal_exists h0 hn
  have hin := input_of_bytes h0
  obtain ⟨hs, hc⟩ := history_sound (v := v) (w := w) hin hP
  have hS : RatesOK (Race.start P.disk jobs) := ratesOK_start hrates (fun j hj r hr hk => by
    obtain ⟨st, hst, hr'⟩ := List.mem_flatMap.1 hr
    exact hbase j hj st hst r hr' hk)
  obtain ⟨V, hV⟩ := race_run (v := v) (w := w) hin schedule _ _ (race_start hs.right hc jobs) (hS.apart schedule)
  have hQ : RatesOK ((Race.start P.disk jobs).run bytes schedule) := hS.run schedule
  rw [← hR] at hV hQ
  obtain ⟨x, hx, rfl, rfl, rfl⟩ := job_at (bytes := bytes) P.disk jobs schedule hj
  rw [← hR] at hx
  refine ⟨x, hx, (hV.each i x hx).alive, ?_, ?_⟩
  · obtain ⟨n, y, h1, h2, h3⟩ := race_ends (bytes := bytes) i _ _ R x hx rfl rfl
    obtain ⟨V', hV'⟩ := race_run (v := v) (w := w) hin (List.replicate n i) R V hV (hQ.apart _)
    refine ⟨n, y, h1, ?_⟩
    have ha := (hV'.each i y h1).alive
    rcases h3 with h3 | h3
    · rw [ha] at h3; cases h3
    · unfold Worker.done; rw [h2, h3, ha]; rfl
  intro hd P' hP'
  have hq' : ∀ (j : Nat) (y : Worker), R.workers[j]? = some y → ∀ r ∈ outputsOf (program x.type x.bits),
      r.file x.rate ∉ y.pending.map CacheEvent.target := by
    intro j y hy r hr hf
    by_cases hji : j = i
    · subst hji
      rw [hx] at hy
      cases hy
      simp only [Worker.done, Bool.and_eq_true, List.isEmpty_iff] at hd
      rw [hd.1.2] at hf
      simp at hf
    · obtain ⟨q, hk, e⟩ := hQ.own j y hy _ hf
      obtain ⟨rfl, e2⟩ := file_inj e
      exact hQ.rates j i y x hji hy hx (e2 hk)
  refine hasIndex_load K h0 hn ?_
  rcases hP' with rfl | rfl
  · exact race_index hV hx hd hq' (fun _ _ h => by cases h)
  · exact race_index hV hx hd hq' (hV.each i x hx).map

/-- **C75** (partial): `c75_rates_partial` after one construction. Once an index has been constructed at one rate, processes that construct
    indexes of the same type at other rates, each at its own, may run under any schedule. -/
theorem c75_after_one_partial {α : Type} (K : Codec α) (bytes : List Nat) (h0 : ∀ c ∈ bytes, c ≠ 0) (hn : bytes.length + 1 < 2^64) (t : IndexType)
    (b : BvKind) (s₀ : Nat) : ∃ P, constructIn bytes t b s₀ (Process.fresh Disk.empty) = some P ∧
    ∀ rates : List Nat, rates.Nodup → ∀ (schedule : List Nat) (R : Race),
      R = (Race.start P.disk (rates.map (fun s => (t, b, s)))).run bytes schedule → ∀ (i s : Nat), rates[i]? = some s →
      ∃ x, R.workers[i]? = some x ∧ x.failed = false ∧
        (∃ n y, (R.run bytes (List.replicate n i)).workers[i]? = some y ∧ y.done = true) ∧
        (x.done = true → ∀ P', P' = Process.fresh R.disk ∨ P' = ⟨R.disk, x.fileMap⟩ →
          ∃ q, loadIn K t b s P' = some q ∧ indexFromBytes t bytes s = some q ∧
            ∀ X, X ≠ [] → (∀ c ∈ X, c ∈ bytes) → ∃ i j l, q.count X = some (i, j) ∧ q.locate X = some l ∧ i ≤ j ∧
              j - i = (occurrences X bytes).length ∧ l.Perm (occurrences X bytes)) := by
  obtain ⟨v, ⟨w⟩⟩ := ideal_exists h0 hn
  have hin := input_of_bytes h0
  obtain ⟨es, P, h1, h2⟩ := construct_run (v := v) (w := w) hin t b s₀ (sound_empty _) cleanDisk_empty
  have hc : constructIn bytes t b s₀ (Process.fresh Disk.empty) = some P := by unfold constructIn; rw [h1]
  refine ⟨P, hc, ?_⟩
  intro rates hr schedule R hR i s hi
  refine c75_rates_partial K bytes h0 hn P (.construct t b s₀ .start hc) (rates.map (fun s => (t, b, s))) ?_ ?_ schedule R hR i t b s ?_
  · rw [List.map_map]
    exact (List.map_id rates).symm ▸ hr
  · intro j hj st hst r hr' hk
    obtain ⟨s', -, rfl⟩ := List.mem_map.1 hj
    dsimp only at hst ⊢
    rw [file_eq_of_plain hk s' s₀]
    exact h2.all r (List.mem_flatMap.2 ⟨st, hst, hr'⟩)
  · rw [List.getElem?_map, hi]; rfl

/-! ## Schedules that are not apart -/

/-- **C75** is false: for every text, and two processes that construct any indexes in an empty directory. If the second begins while the
    first has opened the file of the text and has not closed it, the second fails: it takes the text for done. -/
theorem c75_open_violation (bytes : List Nat) (h0 : ∀ c ∈ bytes, c ≠ 0) (t t' : IndexType) (b b' : BvKind) (s s' : Nat) :
    ∃ x, ((Race.start Disk.empty [(t, b, s), (t', b', s')]).run bytes [0, 0, 1, 1]).workers[1]? = some x ∧ x.failed = true := by
  obtain ⟨rest, e⟩ := program_base4 t b
  obtain ⟨rest', e'⟩ := program_base4 t' b'
  have ht : constructText bytes = .stored (bytes ++ [0]) := (c35_construct_text bytes).1 h0
  have hk : ∀ s : Nat, FileRef.file s (.text, none) = FileRef.file 0 (.text, none) := fun s => file_eq_of_plain rfl s 0
  have hne : FileRef.file 0 (.sa, none) ≠ FileRef.file 0 (.text, none) := by decide
  have hks : ∀ s : Nat, FileRef.file s (.sa, none) = FileRef.file 0 (.sa, none) := fun s => file_eq_of_plain rfl s 0
  simp [Race.start, Race.run, Race.move, Worker.start, Worker.move, e, e', Steps.text, Steps.sa, CacheStep.run, CacheRead.run, storeEvents, Process.has,
    Process.fileName, Disk.empty, Disk.apply, ht, hk, hks, hne]

/-- **C75** is false between steps as well, for every text and rate: SrCSAWithPsiRun, SRCSAValidMark and SRCSAValidArea. Two processes construct
    the same index in an empty directory. The first stops between the step that writes the samples of psi runs and the one that writes their
    marks: no file is half written, and no step half done. Then the second one alone fails; or, if it is an SrCSAWithPsiRun, fails or is done
    without the index in the directory, with no mark stored: it takes the samples for done, and misses the entry of file_map under which the
    step of the marks looks for their indices. -/
theorem c75_psi_violation (bytes : List Nat) (h0 : ∀ c ∈ bytes, c ≠ 0) (hn : bytes.length + 1 < 2^64) (t : IndexType)
    (ht : t = .srCSAWithPsiRun ∨ t = .psiValidMark ∨ t = .psiValidArea) (b : BvKind) (s : Nat) :
    ∃ n m R R', R = (Race.start Disk.empty [(t, b, s), (t, b, s)]).run bytes (List.replicate n 0) ∧ R' = R.run bytes (List.replicate m 1) ∧
      (∀ f, R.disk f ≠ some none) ∧ (∃ x, R.workers[0]? = some x ∧ x.pending = [] ∧ x.failed = false) ∧
      ∃ y, R'.workers[1]? = some y ∧ (y.failed = true ∨ t = .srCSAWithPsiRun ∧ y.done = true ∧ ∀ P, P = Process.fresh R'.disk ∨ P = ⟨R'.disk, y.fileMap⟩ →
        ¬ P.cache.HasIndex t b (bytes ++ [0]) (suffixArray (bytes ++ [0])) s ∧
        ∀ x, P.cache (keyOf t (buildPrefix t s) .marks) (some .sdVector) = some x → ∃ n, x = .sdVector (List.replicate n false)) := by
  obtain ⟨q, es, Q, hprog, hrun, hdisk, hwhole, gap⟩ := psi_cut h0 hn ht b s
  obtain ⟨n, x, h1, h2, h3, h4, h5, h6⟩ := race_alone (bytes := bytes) 0 q (psiPre ++ [Steps.samplesPsi])
    (Race.start Disk.empty [(t, b, s), (t, b, s)]) (Worker.start t b s) es Q rfl rfl rfl hprog hrun
  have hw : ((Race.start Disk.empty [(t, b, s), (t, b, s)]).run bytes (List.replicate n 0)).workers = [x, Worker.start t b s] := by rw [h1]; rfl
  have hd : ((Race.start Disk.empty [(t, b, s), (t, b, s)]).run bytes (List.replicate n 0)).disk = Q.disk := by rw [h1]
  obtain ⟨R, hR⟩ : ∃ R, R = (Race.start Disk.empty [(t, b, s), (t, b, s)]).run bytes (List.replicate n 0) := ⟨_, rfl⟩
  rw [← hR] at hw hd
  have hy : R.workers[1]? = some (Worker.start t b s) := by rw [hw]; rfl
  have h0' : ∃ x, R.workers[0]? = some x ∧ x.pending = [] ∧ x.failed = false := ⟨x, by rw [hw]; rfl, h3, h2⟩
  cases hc : (runSteps bytes s (program t b) (Process.fresh Q.disk)).2 with
  | none =>
    obtain ⟨m, y, k1, k2⟩ := race_alone_none (bytes := bytes) hy rfl rfl (by rw [hd]; exact hc)
    exact ⟨n, m, R, _, hR, rfl, by rw [hd]; exact hwhole, h0', y, k1, Or.inl k2⟩
  | some P =>
    have hcon : constructIn bytes t b s (Process.fresh Q.disk) = some P := hc
    obtain ⟨m, y, k1, k2, k3, k4, k5, k6⟩ := race_alone (bytes := bytes) 1 [] (program t b) R (Worker.start t b s) _ P hy rfl rfl
      (List.append_nil _).symm (by rw [hd]; exact Prod.ext rfl hc)
    refine ⟨n, m, R, _, hR, rfl, by rw [hd]; exact hwhole, h0', y, ?_, Or.inr ⟨?_, ?_, ?_⟩⟩
    · rw [k1]; exact (set_get hy 1 _ _).2 (Or.inl ⟨rfl, rfl⟩)
    · by_contra hne
      rw [psiGap_construct (ht.resolve_left hne) b gap] at hcon
      cases hcon
    · unfold Worker.done; rw [k2, k3, k4]; rfl
    · rw [k1]
      dsimp only
      have hP := CacheHistory.construct (ok := fun _ => True) t b s .start hcon
      rintro P' (rfl | rfl)
      · exact psiGap_marks h0 hn ht b (psiGap_forever gap hP.restart)
      · have : (⟨P.disk, y.fileMap⟩ : Process) = P := by rw [k5]
        rw [this]
        exact psiGap_marks h0 hn ht b (psiGap_forever gap hP)

/-! ## Concrete cases -/

/-- the answers for a pattern of an index that is loaded from a directory -/
def raceAnswers (t : IndexType) (s : Nat) (D : Disk) (X : List Nat) : Option (Option (Nat × Nat) × Option (List Nat)) :=
  (loadIn tokenCodec t .sd s (Process.fresh D)).map (fun q => (q.count X, q.locate X))

/-- two processes that construct an SrIndex and an RIndex in an empty directory and take turns after every step of the first four: the
    hypothesis of `c75_apart_partial` is met -/
example : Apart exBytes ([0, 0, 0] ++ [1, 1, 1, 1] ++ [0, 0, 0, 0] ++ [1, 1, 1, 1, 1, 1]) (Race.start Disk.empty [(.srIndex, .sd, 2), (.rIndex, .sd, 1)]) :=
  apart_of_check _ _ _ (by decide +kernel)

/-- while it is not for the schedule of `c75_open_violation` -/
example : apartCheck exBytes [0, 0, 1, 1] (Race.start Disk.empty [(.srIndex, .sd, 2), (.rIndex, .sd, 1)]) = false := by decide +kernel

/-- **C75** is false without any sign of failure: for an RIndex, an SrCSAWithPsiRun and an SRCSAValidArea there are schedules of two processes in
    an empty directory, with three switches, after which both have completed and the index loads and counts right, but Locate fails. The
    second RIndex begins when the first has opened only the first of the four files of the runs, and takes the others for empty; the second
    SRCSAValidArea when the first has written the validity of the marks and not the areas, and writes its empty areas after the right ones. -/
theorem c75_silent_violation : ∀ t ∈ [IndexType.rIndex, .srCSAWithPsiRun, .psiValidArea], ∃ n m R,
    R = (Race.start Disk.empty [(t, .sd, 2), (t, .sd, 2)]).run exBytes
      (List.replicate n 0 ++ List.replicate m 1 ++ List.replicate 80 0 ++ List.replicate 80 1) ∧
    (∀ x ∈ R.workers, x.done = true) ∧ (∃ q, loadIn tokenCodec t .sd 2 (Process.fresh R.disk) = some q ∧ q.count [2] = some (5, 9) ∧ q.locate [2] = none) ∧
    ((indexFromBytes t exBytes 2).bind (·.locate [2])).isSome = true := by
  have main : ∀ c ∈ [(IndexType.rIndex, 11, 12), (.srCSAWithPsiRun, 52, 80), (.psiValidArea, 78, 24)],
      ((Race.start Disk.empty [(c.1, .sd, 2), (c.1, .sd, 2)]).run exBytes
        (List.replicate c.2.1 0 ++ List.replicate c.2.2 1 ++ List.replicate 80 0 ++ List.replicate 80 1)).workers.all Worker.done = true ∧
      raceAnswers c.1 2 ((Race.start Disk.empty [(c.1, .sd, 2), (c.1, .sd, 2)]).run exBytes
        (List.replicate c.2.1 0 ++ List.replicate c.2.2 1 ++ List.replicate 80 0 ++ List.replicate 80 1)).disk [2] = some (some (5, 9), none) ∧
      ((indexFromBytes c.1 exBytes 2).bind (·.locate [2])).isSome = true := by decide +kernel
  intro t ht
  obtain ⟨c, hc, rfl⟩ : ∃ c ∈ [(IndexType.rIndex, 11, 12), (.srCSAWithPsiRun, 52, 80), (.psiValidArea, 78, 24)], c.1 = t := by
    simp only [List.mem_cons, List.not_mem_nil, or_false] at ht
    rcases ht with rfl | rfl | rfl
    · exact ⟨(.rIndex, 11, 12), by simp, rfl⟩
    · exact ⟨(.srCSAWithPsiRun, 52, 80), by simp, rfl⟩
    · exact ⟨(.psiValidArea, 78, 24), by simp, rfl⟩
  obtain ⟨h1, h2, h3⟩ := main c hc
  obtain ⟨q, hq, hq2⟩ := Option.map_eq_some_iff.1 h2
  simp only [Prod.mk.injEq] at hq2
  exact ⟨c.2.1, c.2.2, _, rfl, List.all_eq_true.1 h1, ⟨q, hq, hq2⟩, h3⟩

/-- one after the other, they get it right -/
example : raceAnswers .srCSAWithPsiRun 2 ((Race.start Disk.empty [(.srCSAWithPsiRun, .sd, 2), (.srCSAWithPsiRun, .sd, 2)]).run exBytes
      (List.replicate 80 0 ++ List.replicate 80 1)).disk [2] = some (some (5, 9), some [7, 9, 4, 1]) := by decide +kernel

/-- the case of `c75_after_one_partial`: after an SrIndex at rate 1, two processes take turns at every move on those at rates 2 and 3 -/
def raceOfTwo : Option Race :=
  (constructIn exBytes .srIndex .sd 1 (Process.fresh Disk.empty)).map (fun P =>
    (Race.start P.disk [(.srIndex, .sd, 2), (.srIndex, .sd, 3)]).run exBytes (List.replicate 60 [0, 1]).flatten)

example : raceOfTwo.map (fun R => R.workers.map Worker.done) = some [true, true] ∧
    raceOfTwo.bind (fun R => raceAnswers .srIndex 2 R.disk [2]) = some (some (5, 9), some [1, 4, 9, 7]) ∧
    raceOfTwo.bind (fun R => raceAnswers .srIndex 3 R.disk [2]) = some (some (5, 9), some [1, 4, 9, 7]) := by decide +kernel

end Sri
