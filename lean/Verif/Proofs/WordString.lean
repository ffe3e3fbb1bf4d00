import Verif.Proofs.Words
import Verif.Proofs.RleBwt
/-! # Machine arithmetic in the run-length string -/
namespace Sri
set_option autoImplicit false

theorem mul64_eq {a b : Nat} (h : a * b < W64) : mul64 a b = a * b := Nat.mod_eq_of_lt h

theorem bvSelect_lt {bv : List Bool} {k i : Nat} (h : bvSelect bv k = some i) : i < bv.length := by
  cases k with
  | zero => rw [bvSelect, if_pos rfl] at h; cases h
  | succ k => exact (bvSelect_eq_some.1 h).1

namespace RLEString

/-- the sizes of the members leave room for their sums -/
structure Small (s : RLEString) : Prop where
  r : s.r < 2 ^ 61
  heads : s.runHeads.length < 2 ^ 61
  runs : s.runs.length < 2 ^ 61
  per : ∀ bv ∈ s.perSym, bv.length < 2 ^ 61

theorem afterSelect_agrees {bv : List Bool} (hb : bv.length < 2 ^ 61) (k : Nat) :
    Agrees (afterSelect bv k) (afterSelect64 bv k) (fun r => r ≤ bv.length) := by
  have hW := W64_eq
  unfold afterSelect afterSelect64
  refine Agrees.ite (fun _ => Agrees.pure (Nat.zero_le _)) fun _ => ?_
  intro r hr
  obtain ⟨e, he, rfl⟩ := Option.map_eq_some_iff.1 hr
  have := bvSelect_lt he
  rw [he, Option.map_some, add64_eq (by omega)]
  exact ⟨rfl, this⟩

/-- the numbers of a run of a symbol are small -/
def SymSmall (d : RunData) : Prop := d.rnk < 2 ^ 61 ∧ d.start < 2 ^ 61 ∧ d.stop < 2 ^ 61

variable {s : RLEString}

theorem Small.symbolRun (h : s.Small) (q : Nat) :
    Agrees (s.computeSymbolRunData q) (s.computeSymbolRunData64 q) (fun d => SymSmall d ∧ q < s.r) := by
  have hW := W64_eq
  unfold computeSymbolRunData computeSymbolRunData64
  simp only [Option.bind_eq_bind, Option.pure_def]
  refine Agrees.assertC fun hq => ?_
  refine Agrees.bind (P := fun x => x.1 < 2 ^ 61) (Agrees.refl fun x hx => ?_) fun x hx _ => ?_
  · unfold wtInverseSelect at hx
    split at hx
    · cases hx
    · rw [Option.some_inj] at hx
      subst hx
      have h1 := List.count_le_length (a := ‹Nat›) (l := s.runHeads.take q)
      have h2 := h.heads
      rw [List.length_take] at h1
      dsimp only; omega
  · refine Agrees.bind (P := fun bv => bv.length < 2 ^ 61) (Agrees.refl fun bv hbv => h.per _ (List.mem_of_getElem? hbv)) fun bv hbv _ => ?_
    refine Agrees.bind (afterSelect_agrees hbv _) fun st hst _ => ?_
    rw [add64_eq (by omega)]
    intro r hr
    obtain ⟨e, he, hr⟩ := Option.bind_eq_some_iff.1 hr
    obtain ⟨e', he', rfl⟩ := Option.map_eq_some_iff.1 he
    have := (bvSelect_eq_some.1 he').1
    rw [he', Option.map_some, add64_eq (by omega), Option.bind_some]
    refine ⟨hr, ?_⟩
    rw [Option.some_inj] at hr
    subst hr
    exact ⟨⟨hx, by dsimp only; omega, by dsimp only; omega⟩, by simpa using hq⟩

/-- what holds of a run and of the run of its symbol -/
structure BothSmall (s : RLEString) (p : RunData × RunData) : Prop where
  rnk : p.1.rnk < s.r
  stop : p.1.stop < 2 ^ 63
  sym : SymSmall p.2

theorem Small.bothRun (h : s.Small) {q qs : Nat} (hs : qs < 2 ^ 62) :
    Agrees (s.computeBothRunData q qs) (s.computeBothRunData64 q qs) (fun p => s.BothSmall p) := by
  have hW := W64_eq
  unfold computeBothRunData computeBothRunData64
  simp only [Option.bind_eq_bind, Option.pure_def]
  refine Agrees.bind (h.symbolRun q) fun d hd _ => ?_
  obtain ⟨⟨h1, h2, h3⟩, h4⟩ := hd
  refine Agrees.csub fun hle => ?_
  rw [wsub_eq hle (by omega), add64_eq (by omega)]
  exact Agrees.pure ⟨h4, by dsimp only; omega, ⟨h1, h2, h3⟩⟩

theorem Small.runData (h : s.Small) {q qs : Nat} (hs : qs < 2 ^ 62) :
    Agrees (s.computeRunData q qs) (s.computeRunData64 q qs) (fun d => d.rnk < s.r ∧ d.stop < 2 ^ 63) := by
  unfold computeRunData computeRunData64
  simp only [Option.bind_eq_bind, Option.pure_def]
  exact Agrees.bind (h.bothRun hs) fun p hp _ => Agrees.pure ⟨hp.rnk, hp.stop⟩

theorem Small.runLength (h : s.Small) (q : Nat) : Agrees (s.computeRunLength q) (s.computeRunLength64 q) (fun l => l < 2 ^ 61 ∧ q < s.r) := by
  have hW := W64_eq
  unfold computeRunLength computeRunLength64
  simp only [Option.bind_eq_bind, Option.pure_def]
  refine Agrees.bind (h.symbolRun q) fun d hd _ => ?_
  obtain ⟨⟨h1, h2, h3⟩, h4⟩ := hd
  have := Agrees.csub (a := d.stop) (b := d.start) (f := some) (y := some (wsub d.stop d.start)) (Q := fun l => l < 2 ^ 61 ∧ q < s.r) fun hle => by
    rw [wsub_eq hle (by omega)]
    exact Agrees.pure ⟨by omega, h4⟩
  rwa [Option.bind_fun_some] at this

theorem Small.advance (h : s.Small) {i : Nat} (hi : i < 2 ^ 61) : ∀ (fuel : Nat) (p : RunData × RunData), s.BothSmall p →
    Agrees (s.advance i fuel p) (s.advance64 i fuel p) (fun p => s.BothSmall p) := by
  have hW := W64_eq
  have hr := h.r
  intro fuel
  induction fuel with
  | zero => intro p _; exact Agrees.none
  | succ fuel ih =>
    intro p hp
    rw [RLEString.advance, RLEString.advance64]
    refine Agrees.ite (fun hle => ?_) fun _ => Agrees.pure hp
    have := hp.rnk
    rw [add64_eq (by omega)]
    exact Agrees.bind (h.bothRun (by omega)) fun q hq _ => ih q hq

theorem Small.softBoth (h : s.Small) {i : Nat} (hi : i < 2 ^ 61) :
    Agrees (s.rankSoftBothRun i) (s.rankSoftBothRun64 i) (fun p => s.BothSmall p ∧ p.1.start ≤ i) := by
  have hW := W64_eq
  have hr := h.r
  unfold rankSoftBothRun rankSoftBothRun64
  simp only [Option.bind_eq_bind, Option.pure_def]
  refine Agrees.bind (P := fun _ => True) (Agrees.refl fun _ _ => trivial) fun block _ _ => ?_
  refine Agrees.bind (afterSelect_agrees h.runs _) fun st hst _ => ?_
  have hst' : st < 2 ^ 62 := by have := h.runs; omega
  have hmul : ∀ p, s.computeBothRunData (block * s.b) st = some p → mul64 block s.b = block * s.b := by
    intro p hp
    unfold computeBothRunData at hp
    simp only [Option.bind_eq_bind, Option.bind_eq_some_iff] at hp
    obtain ⟨d, hd, -⟩ := hp
    have := ((h.symbolRun _) d hd).2.2
    exact mul64_eq (by omega)
  have hb : Agrees (s.computeBothRunData (block * s.b) st) (s.computeBothRunData64 (mul64 block s.b) st) (fun p => s.BothSmall p) := by
    intro p hp
    rw [hmul p hp]
    exact h.bothRun hst' p hp
  refine Agrees.bind hb fun p hp _ => ?_
  refine Agrees.bind (h.advance hi _ _ hp) fun p hp _ => ?_
  refine Agrees.assertC fun h1 => Agrees.assertC fun _ => Agrees.pure ⟨hp, ?_⟩
  exact (of_decide_eq_true h1).1

theorem Small.soft (h : s.Small) {i : Nat} (hi : i < 2 ^ 61) :
    Agrees (s.rankSoftRun i) (s.rankSoftRun64 i) (fun d => d.rnk < s.r ∧ d.stop < 2 ^ 63 ∧ d.start ≤ i) := by
  unfold rankSoftRun rankSoftRun64
  simp only [Option.bind_eq_bind, Option.pure_def]
  exact Agrees.bind (h.softBoth hi) fun p hp _ => Agrees.pure ⟨hp.1.rnk, hp.1.stop, hp.2⟩

theorem Small.access (h : s.Small) (i : Nat) : Agrees (s.access i) (s.access64 i) (fun _ => True) := by
  unfold RLEString.access RLEString.access64
  simp only [Option.bind_eq_bind]
  refine Agrees.assertC fun hi => ?_
  have hi : i < s.runs.length := of_decide_eq_true hi
  have := h.runs
  exact Agrees.bind (h.soft (by omega)) fun d _ _ => Agrees.refl fun _ _ => trivial

theorem Small.rank (h : s.Small) (i c : Nat) : Agrees (s.rank i c) (s.rank64 i c) (fun _ => True) := by
  have hW := W64_eq
  unfold RLEString.rank RLEString.rank64
  simp only [Option.bind_eq_bind, Option.pure_def]
  refine Agrees.assertC fun hi => ?_
  have hi : i ≤ s.runs.length := of_decide_eq_true hi
  have hl := h.runs
  refine Agrees.bind (P := fun bv => bv.length < 2 ^ 61) (Agrees.refl fun bv hbv => h.per _ (List.mem_of_getElem? hbv)) fun bv hbv _ => ?_
  refine Agrees.ite (fun _ => Agrees.pure trivial) fun _ => Agrees.ite (fun _ => Agrees.pure trivial) fun _ => ?_
  refine Agrees.bind (h.soft (by omega)) fun d hd _ => ?_
  refine Agrees.bind (P := fun _ => True) (Agrees.refl fun _ _ => trivial) fun k _ _ => ?_
  refine Agrees.bind (afterSelect_agrees hbv _) fun st hst _ => ?_
  have hd3 := hd.2.2
  by_cases hc : d.c = c
  · rw [if_pos hc, if_pos hc]
    refine Agrees.csub fun hle => ?_
    rw [wsub_eq hle (by omega), add64_eq (by omega)]
    exact Agrees.pure trivial
  · rw [if_neg hc, if_neg hc, Option.bind_some, add64_eq (by omega)]
    exact Agrees.pure trivial

theorem Small.rankReport (h : s.Small) (i c : Nat) : Agrees (s.rankReport i c) (s.rankReport64 i c) (fun _ => True) := by
  have hW := W64_eq
  unfold RLEString.rankReport RLEString.rankReport64
  simp only [Option.bind_eq_bind, Option.pure_def]
  refine Agrees.assertC fun hi => ?_
  have hi : i ≤ s.runs.length := of_decide_eq_true hi
  have hl := h.runs
  refine Agrees.bind (P := fun bv => bv.length < 2 ^ 61) (Agrees.refl fun bv hbv => h.per _ (List.mem_of_getElem? hbv)) fun bv hbv _ => ?_
  refine Agrees.ite (fun _ => Agrees.pure trivial) fun _ => Agrees.ite (fun _ => Agrees.refl fun _ _ => trivial) fun _ => ?_
  refine Agrees.bind (h.softBoth (by omega)) fun p hp _ => ?_
  obtain ⟨⟨h1, h2, h3, h4, h5⟩, h6⟩ := hp
  refine Agrees.ite (fun _ => ?_) fun _ => ?_
  · refine Agrees.csub fun hle => ?_
    rw [wsub_eq hle (by omega), add64_eq (by omega), add64_eq (by omega)]
    exact Agrees.pure trivial
  · refine Agrees.bind (P := fun _ => True) (Agrees.refl fun _ _ => trivial) fun k _ _ => ?_
    refine Agrees.bind (afterSelect_agrees hbv _) fun st hst _ => ?_
    rw [add64_eq (by omega)]
    exact Agrees.pure trivial

theorem Small.rankAt (h : s.Small) (i : Nat) : Agrees (s.rankAt i) (s.rankAt64 i) (fun _ => True) := by
  have hW := W64_eq
  unfold RLEString.rankAt RLEString.rankAt64
  simp only [Option.bind_eq_bind, Option.pure_def]
  refine Agrees.assertC fun hi => ?_
  have hi : i < s.runs.length := of_decide_eq_true hi
  have hl := h.runs
  refine Agrees.bind (h.softBoth (by omega)) fun p hp _ => ?_
  obtain ⟨⟨h1, h2, h3, h4, h5⟩, h6⟩ := hp
  refine Agrees.csub fun hle => ?_
  rw [wsub_eq hle (by omega), add64_eq (by omega)]
  exact Agrees.pure trivial

theorem Small.splitLoop (h : s.Small) {last : Nat} (hl : last < 2 ^ 61) : ∀ (fuel : Nat) (d : RunData), d.rnk < s.r →
    Agrees (s.splitLoop last fuel d) (s.splitLoop64 last fuel d) (fun _ => True) := by
  have hW := W64_eq
  have hr := h.r
  intro fuel
  induction fuel with
  | zero => intro d _; exact Agrees.none
  | succ fuel ih =>
    intro d hd
    rw [RLEString.splitLoop, RLEString.splitLoop64]
    refine Agrees.ite (fun hlt => ?_) fun _ => Agrees.pure trivial
    rw [add64_eq (by omega)]
    refine Agrees.bind (h.runData (by omega)) fun q hq _ => ?_
    exact Agrees.bind (ih q hq.1) fun _ _ _ => Agrees.pure trivial

theorem Small.splitInRuns (h : s.Small) (first last : Nat) : Agrees (s.splitInRuns first last) (s.splitInRuns64 first last) (fun _ => True) := by
  unfold RLEString.splitInRuns RLEString.splitInRuns64
  simp only [Option.bind_eq_bind]
  refine Agrees.assertC fun hi => ?_
  have hi := of_decide_eq_true hi
  have hl := h.runs
  have hs : s.size = s.runs.length := rfl
  refine Agrees.bind (h.soft (by omega)) fun d hd _ => ?_
  exact h.splitLoop (by omega) _ d hd.1

/-- the loop of select: the result bounds the sums on the way -/
theorem Small.addRunLengths (h : s.Small) : ∀ (k i acc : Nat) (B : Nat), B < 2 ^ 63 → ∀ r, s.addRunLengths k i acc = some r → r ≤ B →
    s.addRunLengths64 k i acc = some r ∧ acc ≤ r := by
  have hW := W64_eq
  have hr := h.r
  intro k
  induction k with
  | zero =>
    intro i acc B hB r e hrB
    rw [RLEString.addRunLengths, Option.some_inj] at e
    subst e
    exact ⟨rfl, Nat.le_refl _⟩
  | succ k ih =>
    intro i acc B hB r e hrB
    rw [RLEString.addRunLengths] at e
    simp only [Option.bind_eq_bind, Option.bind_eq_some_iff] at e
    obtain ⟨l, hl, e⟩ := e
    obtain ⟨e1, e2, e3⟩ := h.runLength i l hl
    obtain ⟨g1, g2⟩ := ih (i + 1) (acc + l) B hB r e hrB
    rw [RLEString.addRunLengths64]
    simp only [Option.bind_eq_bind, e1, Option.bind_some]
    rw [add64_eq (show i + 1 < W64 by omega), add64_eq (show acc + l < W64 by omega)]
    exact ⟨g1, by omega⟩

/-- select, given that its result is a position -/
theorem Small.select (h : s.Small) (rnk c : Nat) {r : Nat} (e : s.select rnk c = some r) (hr : r < 2 ^ 61) : s.select64 rnk c = some r := by
  have hW := W64_eq
  unfold RLEString.select at e
  simp only [Option.bind_eq_bind, Option.bind_eq_some_iff, Option.pure_def, Option.some_inj] at e
  obtain ⟨bv, hbv, u, ha, sr, hsr, off, hoff, g, hg, st, hst, run, hrun, rfl⟩ := e
  have hl := h.per bv (List.mem_of_getElem? hbv)
  have hrk : 1 ≤ rnk ∧ rnk ≤ bv.length := by
    unfold assertC at ha
    by_contra hc
    rw [if_neg (by simpa using hc)] at ha; cases ha
  have hsr' := (bvRank_le hsr).1
  have hg' : g < s.runHeads.length := (List.getElem?_eq_some_iff.1 (wtSelect_eq_some.1 hg).1).1
  have hh := h.heads
  have hdiv : g / s.b * s.b ≤ g := Nat.div_mul_le_self _ _
  have hm : mul64 (g / s.b) s.b = g / s.b * s.b := mul64_eq (by omega)
  have hst' := (afterSelect_agrees h.runs _ st hst).1
  obtain ⟨hrun', -⟩ := h.addRunLengths _ _ _ (2 ^ 62) (by omega) run hrun (by omega)
  unfold RLEString.select64
  simp only [Option.bind_eq_bind, Option.pure_def, hbv, Option.bind_some, ha, wsub_eq hrk.1 (show rnk < W64 by omega), hsr]
  have hoff' : (if sr = 0 then some (rnk - 1) else (bvSelect bv sr).bind fun e => some (wsub (rnk - 1) (add64 e 1))) = some off := by
    by_cases h0 : sr = 0
    · rw [if_pos h0] at hoff ⊢; exact hoff
    · rw [if_neg h0] at hoff ⊢
      obtain ⟨e, he, hoff⟩ := Option.bind_eq_some_iff.1 hoff
      have he' := bvSelect_lt he
      unfold csub at hoff
      by_cases hle : e + 1 ≤ rnk - 1
      · rw [if_pos hle] at hoff
        rw [he, Option.bind_some, add64_eq (by omega), wsub_eq hle (by omega)]
        exact hoff
      · rw [if_neg hle] at hoff; cases hoff
  rw [hoff']
  simp only [Option.bind_some, add64_eq (show sr + 1 < W64 by omega), hg, hst', hm, hrun']
  rw [add64_eq (by omega)]

end RLEString

/-! ## Built strings -/

theorem ustart_sub (R : List (Nat × Nat)) (p : Nat × Nat → Bool) : ((R.filter p).map (·.2)).sum ≤ (R.map (·.2)).sum := by
  induction R with
  | nil => simp
  | cons q R ih =>
    rw [List.filter_cons]
    by_cases hq : p q = true
    · rw [if_pos hq]; simp only [List.map_cons, List.sum_cons]; omega
    · rw [if_neg hq]; simp only [List.map_cons, List.sum_cons]; omega

theorem length_le_sum {R : List (Nat × Nat)} (h : ∀ q ∈ R, 0 < q.2) : R.length ≤ (R.map (·.2)).sum := by
  induction R with
  | nil => simp
  | cons q R ih =>
    have h1 := h q List.mem_cons_self
    have h2 := ih fun q hq => h q (List.mem_cons_of_mem _ hq)
    simp only [List.length_cons, List.map_cons, List.sum_cons]; omega

/-- the members of a run-length string are no longer than the sequence -/
theorem Rep.small {S : RLEString} {R : List (Nat × Nat)} (h : Rep S R) (hn : (expand R).length < 2 ^ 61) : S.Small := by
  have e1 : (expand R).length = (R.map (·.2)).sum := by rw [length_expand, rstart, List.take_length]
  have e2 := length_le_sum h.pos
  have e3 : S.runs.length = (expand R).length := h.size_eq
  refine ⟨by rw [h.r]; omega, by rw [h.heads, List.length_map]; omega, by omega, fun bv hbv => ?_⟩
  obtain ⟨c, hc, rfl⟩ := List.getElem_of_mem hbv
  have e4 := h.sym c hc
  rw [List.getElem?_eq_getElem hc, Option.some_inj] at e4
  rw [e4, length_un (by
    intro q hq
    obtain ⟨q', hq', rfl⟩ := List.mem_map.1 hq
    exact h.pos _ (List.mem_of_mem_filter hq')), ustart, List.take_length, List.map_map]
  have := ustart_sub R (fun q => q.1 == c)
  change ((R.filter (fun q => q.1 == c)).map (·.2)).sum < _
  omega

end Sri
