import Mathlib.Data.List.Induction
import Verif.Model.PlotQueries
import Mathlib.Data.List.Basic
import Mathlib.Data.List.Nodup
/-! # The curves of plot_queries.py go by the order in which the indexes occur in the results -/
namespace Sri
set_option autoImplicit false
namespace PlotQueries

variable {V : Type}

/-- the results of one index -/
def rowsOf (data : List (ResultRow V)) (b : List Char) : List (ResultRow V) := data.filter (fun r => baseName r.name = b)

/-- the names of the listed indexes in the order of their first results -/
def seen (idx : List IndexRow) (data : List (ResultRow V)) : List (List Char) :=
  ((data.map (fun r => baseName r.name)).filter (fun b => (labelOf idx b).isSome)).eraseDups

theorem labelOf_isSome {idx : List IndexRow} {b : List Char} : (labelOf idx b).isSome = true ↔ b ∈ idx.map (·.name) := by
  unfold labelOf
  rw [Option.isSome_map, List.find?_isSome, List.mem_map]
  constructor
  · rintro ⟨r, h1, h2⟩
    exact ⟨r, List.mem_reverse.1 h1, by simpa using h2⟩
  · rintro ⟨r, h1, h2⟩
    exact ⟨r, List.mem_reverse.2 h1, by simpa using h2⟩

theorem labelOf_eq {idx : List IndexRow} (hd : (idx.map (·.name)).Nodup) {r : IndexRow} (hr : r ∈ idx) : labelOf idx r.name = some r.label := by
  have hs := labelOf_isSome.2 (List.mem_map.2 ⟨r, hr, rfl⟩)
  unfold labelOf at hs ⊢
  rw [Option.isSome_map] at hs
  obtain ⟨q, hq⟩ := Option.isSome_iff_exists.1 hs
  have h1 := List.find?_some hq
  have h2 := List.mem_reverse.1 (List.mem_of_find?_eq_some hq)
  have : q = r := List.inj_on_of_nodup_map hd h2 hr (by simpa using h1)
  rw [hq, this]; rfl

theorem rowsOf_snoc (data : List (ResultRow V)) (r : ResultRow V) (b : List Char) :
    rowsOf (data ++ [r]) b = if baseName r.name = b then rowsOf data b ++ [r] else rowsOf data b := by
  unfold rowsOf
  rw [List.filter_append]
  by_cases h : baseName r.name = b <;> simp [h]

theorem eraseDups_snoc {l : List (List Char)} {b : List Char} : (l ++ [b]).eraseDups = if b ∈ l then l.eraseDups else l.eraseDups ++ [b] := by
  rw [List.eraseDups_append]
  by_cases h : b ∈ l
  · rw [if_pos h, show ([b] : List (List Char)).removeAll l = [] by simp [List.removeAll, h]]
    simp
  · rw [if_neg h, show ([b] : List (List Char)).removeAll l = [b] by simp [List.removeAll, h]]
    rfl

theorem seen_none {idx : List IndexRow} {data : List (ResultRow V)} {r : ResultRow V} (h : labelOf idx (baseName r.name) = none) :
    seen idx (data ++ [r]) = seen idx data := by
  unfold seen
  rw [List.map_append, List.filter_append]
  simp [h]

theorem mem_seen {idx : List IndexRow} {data : List (ResultRow V)} {b : List Char} :
    b ∈ seen idx data ↔ b ∈ idx.map (·.name) ∧ ∃ r ∈ data, baseName r.name = b := by
  unfold seen
  rw [List.mem_eraseDups, List.mem_filter, labelOf_isSome, List.mem_map, and_comm]

theorem seen_some {idx : List IndexRow} {data : List (ResultRow V)} {r : ResultRow V} {l : List Char} (h : labelOf idx (baseName r.name) = some l) :
    seen idx (data ++ [r]) = if baseName r.name ∈ seen idx data then seen idx data else seen idx data ++ [baseName r.name] := by
  have e : seen idx (data ++ [r]) = (((data.map (fun r => baseName r.name)).filter (fun b => (labelOf idx b).isSome)) ++ [baseName r.name]).eraseDups := by
    unfold seen
    rw [List.map_append, List.filter_append]
    simp [h]
  rw [e, eraseDups_snoc]
  by_cases hm : baseName r.name ∈ seen idx data
  · rw [if_pos hm, if_pos (by unfold seen at hm; rwa [List.mem_eraseDups] at hm)]
    rfl
  · rw [if_neg hm, if_neg (by unfold seen at hm; rwa [List.mem_eraseDups] at hm)]
    rfl

theorem nodup_seen (idx : List IndexRow) (data : List (ResultRow V)) : (seen idx data).Nodup := by
  induction data using List.reverseRecOn with
  | nil => simp [seen]
  | append_singleton data r ih =>
    cases h : labelOf idx (baseName r.name) with
    | none => rw [seen_none h]; exact ih
    | some l =>
      rw [seen_some h]
      by_cases hm : baseName r.name ∈ seen idx data
      · rw [if_pos hm]; exact ih
      · rw [if_neg hm]
        exact List.nodup_append.2 ⟨ih, by simp, by simp; intro a ha hc; exact hm (hc ▸ ha)⟩

theorem appendAt_map {f : List Char → List V} {L : List (List Char)} {b : List Char} (hd : L.Nodup) (hb : b ∈ L) (v : V) :
    appendAt (L.map f) (L.idxOf b) v = some (L.map (fun c => if b = c then f c ++ [v] else f c)) := by
  have hi := List.idxOf_lt_length_of_mem hb
  unfold appendAt
  rw [List.getElem?_map, List.getElem?_eq_getElem hi]
  simp only [Option.map_some, Option.bind_eq_bind, Option.bind_some, Option.pure_def, Option.some_inj]
  rw [List.getElem_idxOf]
  apply List.ext_getElem?
  intro j
  by_cases hj : j < L.length
  · rw [List.getElem?_set, List.getElem?_map, List.getElem?_map, List.getElem?_eq_getElem hj]
    by_cases hji : L.idxOf b = j
    · subst hji
      simp [hi]
    · rw [if_neg hji]
      have : b ≠ L[j] := by
        intro hc
        subst hc
        exact hji (hd.idxOf_getElem j hj)
      simp [this]
  · rw [List.getElem?_eq_none (by simp; omega), List.getElem?_eq_none (by simp; omega)]

/-- the line written for a result, if its index is listed -/
def outRow (idx : List IndexRow) (ms : V → V) (r : ResultRow V) : Option (OutRow V) :=
  (labelOf idx (baseName r.name)).map (fun l => ⟨l, r.name, r.space, ms r.time, r.patterns⟩)

theorem collect_eq (idx : List IndexRow) (ms : V → V) (data : List (ResultRow V)) :
    collect idx ms data = some ⟨seen idx data, (seen idx data).map (fun b => (rowsOf data b).map (·.space)),
      (seen idx data).map (fun b => (rowsOf data b).map (fun r => ms r.time)), data.filterMap (outRow idx ms)⟩ := by
  induction data using List.reverseRecOn with
  | nil => rfl
  | append_singleton data r ih =>
    unfold collect at ih ⊢
    rw [List.foldlM_append, ih]
    simp only [Option.bind_eq_bind, Option.bind_some, List.foldlM_cons, List.foldlM_nil, Option.pure_def, Option.bind_fun_some]
    unfold addRow
    have hrest : ∀ c, c ∈ seen idx data → ¬ baseName r.name = c → rowsOf (data ++ [r]) c = rowsOf data c := fun c _ h => by
      rw [rowsOf_snoc, if_neg h]
    cases h : labelOf idx (baseName r.name) with
    | none =>
      have hne : ∀ c ∈ seen idx data, ¬ baseName r.name = c := by
        intro c hc hh
        have := labelOf_isSome.2 (mem_seen.1 hc).1
        rw [← hh, h] at this
        simp at this
      have hout : (data ++ [r]).filterMap (outRow idx ms) = data.filterMap (outRow idx ms) := by
        rw [List.filterMap_append]
        simp [outRow, h]
      rw [seen_none h, hout]
      dsimp only
      congr 2
      all_goals exact List.map_congr_left (fun c hc => by rw [hrest c hc (hne c hc)])
    | some l =>
      have hout : (data ++ [r]).filterMap (outRow idx ms) = data.filterMap (outRow idx ms) ++ [⟨l, r.name, r.space, ms r.time, r.patterns⟩] := by
        rw [List.filterMap_append]
        simp [outRow, h]
      rw [hout]
      have hsn := nodup_seen idx (data ++ [r])
      have hmem : baseName r.name ∈ seen idx (data ++ [r]) := mem_seen.2 ⟨labelOf_isSome.1 (by rw [h]; rfl), r, by simp, rfl⟩
      have hst : (if baseName r.name ∈ seen idx data then
            (⟨seen idx data, (seen idx data).map (fun b => (rowsOf data b).map (·.space)),
              (seen idx data).map (fun b => (rowsOf data b).map (fun r => ms r.time)), data.filterMap (outRow idx ms)⟩ : State V)
          else ⟨seen idx data ++ [baseName r.name], (seen idx data).map (fun b => (rowsOf data b).map (·.space)) ++ [[]],
              (seen idx data).map (fun b => (rowsOf data b).map (fun r => ms r.time)) ++ [[]], data.filterMap (outRow idx ms)⟩) =
          ⟨seen idx (data ++ [r]), (seen idx (data ++ [r])).map (fun b => (rowsOf data b).map (·.space)),
            (seen idx (data ++ [r])).map (fun b => (rowsOf data b).map (fun r => ms r.time)), data.filterMap (outRow idx ms)⟩ := by
        rw [seen_some h]
        by_cases hm : baseName r.name ∈ seen idx data
        · rw [if_pos hm, if_pos hm]
        · have h0 : rowsOf data (baseName r.name) = [] := by
            unfold rowsOf
            rw [List.filter_eq_nil_iff]
            intro q hq hc
            exact hm (mem_seen.2 ⟨labelOf_isSome.1 (by rw [h]; rfl), q, hq, by simpa using hc⟩)
          rw [if_neg hm, if_neg hm, List.map_append, List.map_append]
          simp [h0]
      dsimp only
      rw [hst]
      simp only [appendAt_map hsn hmem, Option.bind_eq_bind, Option.bind_some, Option.pure_def, Option.some_inj, State.mk.injEq, true_and, and_true]
      refine ⟨List.map_congr_left (fun c _ => ?_), List.map_congr_left (fun c _ => ?_)⟩
      all_goals
        rw [rowsOf_snoc]
        by_cases hc : baseName r.name = c <;> simp [hc]

end PlotQueries
end Sri
