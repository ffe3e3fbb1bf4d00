import Verif.Proofs.PlotQueries
/-! # C81: the plots of the benchmark results

The table that is written has every result of a listed index with the label of that index. The curves do not: they are numbered by the order in
which the indexes first occur in the results, while the labels (with the markers and the colours) go by the lines of the file of indexes. The two
agree when the indexes occur in the results in the order of that file, with none missing before one that is shown. -/
namespace Sri
set_option autoImplicit false
namespace PlotQueries
variable {V : Type}

/-- the line of the table that a result is owed: the label of the index of that name, if it is listed -/
def specRow (idx : List IndexRow) (ms : V → V) (r : ResultRow V) : Option (OutRow V) :=
  (idx.find? (fun x => x.name = r.name.takeWhile (· ≠ '/'))).map (fun x => ⟨x.label, r.name, r.space, ms r.time, r.patterns⟩)

/-- the curve an index is owed: its label and its own measurements, in their order -/
def specCurve (ms : V → V) (data : List (ResultRow V)) (x : IndexRow) : List Char × List V × List V :=
  (x.label, (data.filter (fun r => r.name.takeWhile (· ≠ '/') = x.name)).map (·.space),
    (data.filter (fun r => r.name.takeWhile (· ≠ '/') = x.name)).map (fun r => ms r.time))

/-- the listed indexes, in the order in which they first occur in the results -/
def firstSeen (idx : List IndexRow) (data : List (ResultRow V)) : List (List Char) :=
  ((data.map (fun r => r.name.takeWhile (· ≠ '/'))).filter (fun b => b ∈ idx.map (·.name))).eraseDups

theorem firstSeen_eq (idx : List IndexRow) (data : List (ResultRow V)) : firstSeen idx data = seen idx data := by
  unfold firstSeen seen
  congr 1
  have : (data.map (fun r => r.name.takeWhile (· ≠ '/'))) = data.map (fun r => baseName r.name) := rfl
  rw [this]
  apply List.filter_congr
  intro b _
  have := labelOf_isSome (idx := idx) (b := b)
  cases h : (labelOf idx b).isSome
  · simp only [h, Bool.false_eq_true, false_iff] at this
    simpa using this
  · simp only [h, true_iff] at this
    simpa using this

theorem find_name {idx : List IndexRow} (hd : (idx.map (·.name)).Nodup) {x : IndexRow} (hx : x ∈ idx) :
    idx.find? (fun y => y.name = x.name) = some x := by
  cases h : idx.find? (fun y => y.name = x.name) with
  | none =>
    rw [List.find?_eq_none] at h
    exact (h x hx (by simp)).elim
  | some y =>
    have h1 := List.find?_some h
    have h2 := List.mem_of_find?_eq_some h
    exact congrArg some (List.inj_on_of_nodup_map hd h2 hx (by simpa using h1))

theorem outRow_eq {idx : List IndexRow} (hd : (idx.map (·.name)).Nodup) (ms : V → V) (r : ResultRow V) :
    outRow idx ms r = specRow idx ms r := by
  unfold outRow specRow labelOf
  have : idx.reverse.find? (fun x => x.name = baseName r.name) = idx.find? (fun x => x.name = baseName r.name) := by
    cases h : idx.find? (fun x => x.name = baseName r.name) with
    | none =>
      rw [List.find?_eq_none] at h ⊢
      intro x hx
      exact h x (List.mem_reverse.1 hx)
    | some x =>
      have h1 : x.name = baseName r.name := by simpa using List.find?_some h
      have hm := List.mem_of_find?_eq_some h
      rw [← h1]
      exact find_name (by rw [List.map_reverse]; exact List.nodup_reverse.2 hd) (List.mem_reverse.2 hm)
  rw [this, Option.map_map]
  rfl

/-- the curve of number `k`: the label of line `k` of the file of indexes, the measurements of the index that occurs `k`-th in the results -/
theorem curves_eq {idx : List IndexRow} {ms : V → V} {show_ : List Nat} {data : List (ResultRow V)} {st : State V}
    (h : collect idx ms data = some st) :
    curves idx show_ st = show_.mapM (fun k => do
      let b ← (firstSeen idx data)[k]?
      let r ← idx[k]?
      return (r.label, (rowsOf data b).map (·.space), (rowsOf data b).map (fun r => ms r.time))) := by
  rw [collect_eq, Option.some_inj] at h
  subst h
  unfold curves
  congr 1
  funext k
  simp only [firstSeen_eq, List.getElem?_map]
  cases (seen idx data)[k]? <;> rfl

theorem mapM_some {α β : Type} {f : α → Option β} {g : α → β} : ∀ {l : List α}, (∀ a ∈ l, f a = some (g a)) → l.mapM f = some (l.map g)
  | [], _ => rfl
  | a :: l, h => by
    rw [List.mapM_cons, h a (by simp), mapM_some (fun b hb => h b (by simp [hb]))]
    rfl

theorem mapM_none {α β : Type} {f : α → Option β} : ∀ {l : List α} {a : α}, a ∈ l → f a = none → l.mapM f = none
  | b :: l, a, ha, h => by
    rw [List.mapM_cons]
    rcases List.mem_cons.1 ha with rfl | hl
    · rw [h]; rfl
    · rw [mapM_none hl h]
      cases f b <;> rfl

/-! Two indexes, three results: in the order of the file the curves are right; with the results of the second index first the labels are swapped. -/
def exIdx : List IndexRow := [⟨"r".toList, "R-Index".toList⟩, ⟨"sr".toList, "SR-Index".toList⟩]
def exData : List (ResultRow Nat) := [⟨"r".toList, 9, 1, 4⟩, ⟨"sr/4".toList, 5, 2, 4⟩, ⟨"x".toList, 7, 7, 4⟩, ⟨"sr/8".toList, 3, 6, 4⟩]
def exSwapped : List (ResultRow Nat) := [⟨"sr/4".toList, 5, 2, 4⟩, ⟨"sr/8".toList, 3, 6, 4⟩, ⟨"r".toList, 9, 1, 4⟩]

end PlotQueries
open PlotQueries
variable {V : Type}

/-- **C81**: the reading of the results never faults and the table that is written holds, in the order of the results, one line for each result
of a listed index, with the label of that index and its own numbers. -/
theorem c81_table {idx : List IndexRow} (hd : (idx.map (·.name)).Nodup) (ms : V → V) (data : List (ResultRow V)) :
    ∃ st, collect idx ms data = some st ∧ st.out = data.filterMap (specRow idx ms) := by
  refine ⟨_, collect_eq idx ms data, ?_⟩
  simp only
  congr 1
  funext r
  exact outRow_eq hd ms r

/-- **C81**, the curves, where the code has the property: the listed indexes first occur in the results in the order of the file of indexes and
the curves asked for are of indexes that occur. Then each is drawn with its own label and its own measurements. -/
theorem c81_curves_partial {idx : List IndexRow} (hd : (idx.map (·.name)).Nodup) (ms : V → V) {show_ : List Nat} {data : List (ResultRow V)}
    (hpre : firstSeen idx data <+: idx.map (·.name)) (hs : ∀ k ∈ show_, k < (firstSeen idx data).length) :
    plot idx ms show_ data = some (data.filterMap (specRow idx ms), show_.filterMap (fun k => (idx[k]?).map (specCurve ms data))) := by
  obtain ⟨st, h, ho⟩ := c81_table hd ms data
  have hc : ∀ k ∈ show_, k < idx.length := fun k hk => Nat.lt_of_lt_of_le (hs k hk) (by simpa using hpre.length_le)
  have e : curves idx show_ st = some (show_.filterMap (fun k => (idx[k]?).map (specCurve ms data))) := by
    rw [curves_eq h]
    clear ho h
    induction show_ with
    | nil => rfl
    | cons k l ih =>
      have hk := hc k (by simp)
      have hb : (firstSeen idx data)[k]? = some idx[k].name := by
        rw [List.getElem?_eq_getElem (hs k (by simp)), hpre.getElem (hs k (by simp)), List.getElem_map]
      rw [List.mapM_cons, ih (fun j hj => hs j (by simp [hj])) (fun j hj => hc j (by simp [hj]))]
      simp only [hb, List.getElem?_eq_getElem hk, Option.bind_eq_bind, Option.bind_some, Option.pure_def, List.filterMap_cons, Option.map_some]
      rfl
  unfold plot
  rw [h]
  simp only [Option.bind_eq_bind, Option.bind_some, e, ho]
  rfl

/-- the code does not have the property: a curve whose place in the results is not its place in the file carries the label of line `k` and the
measurements of another index. -/
theorem c81_curves_violation {idx : List IndexRow} (ms : V → V) {data : List (ResultRow V)} {k : Nat} {x y : IndexRow}
    (hx : idx[k]? = some x) (hy : y.name ≠ x.name) (hk : (firstSeen idx data)[k]? = some y.name) :
    ∃ st, collect idx ms data = some st ∧
      curves idx [k] st = some [(x.label, (specCurve ms data y).2)] ∧
      (data.filter (fun r => r.name.takeWhile (· ≠ '/') = y.name)) ≠ [] ∧
      List.Disjoint (data.filter (fun r => r.name.takeWhile (· ≠ '/') = y.name)) (data.filter (fun r => r.name.takeWhile (· ≠ '/') = x.name)) := by
  refine ⟨_, collect_eq idx ms data, ?_, ?_, ?_⟩
  · rw [curves_eq (collect_eq idx ms data)]
    simp only [List.mapM_cons, List.mapM_nil, hk, hx, Option.bind_eq_bind, Option.bind_some, Option.pure_def]
    rfl
  · have := List.mem_of_getElem? hk
    rw [firstSeen_eq, mem_seen] at this
    obtain ⟨_, r, hr, hb⟩ := this
    exact List.ne_nil_of_mem (List.mem_filter.2 ⟨hr, by simpa [baseName] using hb⟩)
  · intro r h1 h2
    have h1 := (List.mem_filter.1 h1).2
    have h2 := (List.mem_filter.1 h2).2
    simp only [decide_eq_true_eq] at h1 h2
    exact hy (h1.symm.trans h2)

/-- and a collection whose results lack a listed index cannot show as many curves as the file has lines: asking for one past those that occur
ends the program, after the table is written and before anything is drawn. -/
theorem c81_curves_missing {idx : List IndexRow} (ms : V → V) {show_ : List Nat} {data : List (ResultRow V)} {k : Nat}
    (hk : k ∈ show_) (hm : (firstSeen idx data).length ≤ k) : plot idx ms show_ data = none := by
  unfold plot
  rw [collect_eq]
  simp only [Option.bind_eq_bind, Option.bind_some]
  rw [curves_eq (collect_eq idx ms data), mapM_none hk]
  · rfl
  · rw [List.getElem?_eq_none hm]; rfl

example : (exIdx.map (·.name)).Nodup ∧ firstSeen exIdx exData <+: exIdx.map (·.name) ∧ (∀ k ∈ [0, 1], k < (firstSeen exIdx exData).length) := by
  decide +kernel
example : plot exIdx (· * 1000) [1, 0] exData = some (
    [⟨"R-Index".toList, "r".toList, 9, 1000, 4⟩, ⟨"SR-Index".toList, "sr/4".toList, 5, 2000, 4⟩, ⟨"SR-Index".toList, "sr/8".toList, 3, 6000, 4⟩],
    [("SR-Index".toList, [5, 3], [2000, 6000]), ("R-Index".toList, [9], [1000])]) := by
  decide +kernel
example : exIdx[0]? = some ⟨"r".toList, "R-Index".toList⟩ ∧ (firstSeen exIdx exSwapped)[0]? = some "sr".toList ∧
    (plot exIdx (· * 1000) [0] exSwapped).map (·.2) = some [("R-Index".toList, [5, 3], [2000, 6000])] := by
  decide +kernel
example : (firstSeen exIdx (exSwapped.take 2)).length = 1 ∧ plot exIdx (· * 1000) [1] (exSwapped.take 2) = none := by
  decide +kernel

end Sri
