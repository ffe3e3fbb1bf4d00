import Verif.Model.RleString
import Verif.Proofs.Sparse
/-! # rle_string and its runs -/
namespace Sri
set_option autoImplicit false
open Rep

/-- the object of the other class that stores the same runs -/
def RleString.other (S : RleString) : RLEString :=
  { r := S.R, b := S.B, runHeads := S.heads, runs := S.runs.bits, perSym := S.perLetter.map (·.bits) }

/-- `S` stores the sequence with runs `R` -/
structure RepB (S : RleString) (R : List (Nat × Nat)) : Prop where
  rep : Rep S.other R
  n : S.n = rstart R R.length
  len : S.perLetter.length = 256
  runs : Represents S.runs (un (blk S.B 0 R))
  sym : ∀ c, c < 256 → ∃ bv, S.perLetter[c]? = some bv ∧ Represents bv (un (symL R c))

theorem loop_eq (B last r : Nat) (xs : List Nat) : RleString.loop B last r xs = RLEString.emit B last r xs := by
  induction xs generalizing last r with
  | nil => rfl
  | cons c xs ih =>
    rw [RleString.loop, RLEString.emit, ih, ih]
    by_cases h : c = last
    · subst h; simp
    · rw [if_pos h, if_pos (Ne.symm h)]

theorem countRuns_rle (x : Nat) (xs : List Nat) : RleString.countRuns (x :: xs) = (rle (x :: xs)).length := by
  induction xs generalizing x with
  | nil => rfl
  | cons y xs ih =>
    rw [RleString.countRuns, ih y]
    by_cases h : y = x
    · subst h
      obtain ⟨l, R, e⟩ := rle_cons y xs
      rw [rle_eq_same y xs e, e]; simp
    · rw [rle_eq_diff (Ne.symm h)]; simp [h]; omega

theorem sum_indicator (k d : Nat) (h : d < k) : ((List.range k).map (fun c => if d = c then 1 else 0)).sum = 1 := by
  induction k with
  | zero => omega
  | succ k ih =>
    rw [List.range_succ, List.map_append, List.sum_append]
    by_cases hd : d = k
    · subst hd
      have : ((List.range d).map (fun c => if d = c then 1 else 0)).sum = 0 := by
        rw [List.sum_eq_zero_iff_forall_eq_nat]
        intro x hx
        obtain ⟨c, hc, rfl⟩ := List.mem_map.1 hx
        rw [if_neg (by have := List.mem_range.1 hc; omega)]
      rw [this]; simp
    · rw [ih (by omega)]; simp [hd]

theorem sum_add (l : List Nat) (f g : Nat → Nat) : (l.map (fun c => f c + g c)).sum = (l.map f).sum + (l.map g).sum := by
  induction l with
  | nil => rfl
  | cons a l ih => simp only [List.map_cons, List.sum_cons, ih]; omega

theorem sum_letters (k : Nat) (l : List (Nat × Bool)) (h : ∀ q ∈ l, q.1 < k) :
    ((List.range k).map (fun c => ((l.filter (fun q => q.1 == c)).map (·.2)).length)).sum = l.length := by
  induction l with
  | nil => simp
  | cons q l ih =>
    have e : (List.range k).map (fun c => (((q :: l).filter (fun q => q.1 == c)).map (·.2)).length) =
        (List.range k).map (fun c => (if q.1 = c then 1 else 0) + ((l.filter (fun q => q.1 == c)).map (·.2)).length) := by
      apply List.map_congr_left
      intro c _
      by_cases hc : q.1 = c
      · simp [hc]; omega
      · rw [List.filter_cons_of_neg (by simpa using hc), if_neg hc]; omega
    rw [e, sum_add, sum_indicator k q.1 (h q (by simp)), ih (fun q hq => h q (by simp [hq]))]
    simp; omega

theorem cString_append_zero {s : List Nat} (h : 0 ∉ s) : cString (s ++ [0]) = s := by
  induction s with
  | nil => rfl
  | cons a s ih =>
    have ha : a ≠ 0 := fun e => h (by simp [e])
    have := ih (fun hs => h (by simp [hs]))
    rw [cString] at this ⊢
    rw [List.cons_append, List.takeWhile_cons, if_pos (by simpa using ha), this]

theorem huff_build {s : List Nat} (h : 0 ∉ s) : HuffString.build s = some s := by
  simp [HuffString.build, cString_append_zero h, assertC]

theorem mem_rle {xs : List Nat} {q : Nat × Nat} (h : q ∈ rle xs) : q.1 ∈ xs := by
  have : q.1 ∈ expand (rle xs) := by
    rw [expand, List.mem_flatMap]
    exact ⟨q, h, by have := rle_pos _ q h; simp; omega⟩
  rwa [expand_rle] at this

theorem per_length (R : List (Nat × Nat)) (hp : ∀ q ∈ R, 0 < q.2) :
    (R.flatMap (fun q => List.replicate (q.2 - 1) (q.1, false) ++ [(q.1, true)])).length = (expand R).length := by
  induction R with
  | nil => rfl
  | cons q R ih =>
    have := hp q (by simp)
    have := ih (fun q hq => hp q (by simp [hq]))
    simp only [expand, List.flatMap_cons, List.length_append, List.length_replicate] at this ⊢
    rw [this]; simp; omega

theorem buildB_rep {xs : List Nat} {B : Nat} (hx : xs ≠ []) (hB : 0 < B) (h0 : 0 ∉ xs) (hb : ∀ c ∈ xs, c < 256) :
    ∃ S, RleString.build xs B = some S ∧ S.B = B ∧ RepB S (rle xs) := by
  cases xs with
  | nil => exact absurd rfl hx
  | cons x rest =>
    obtain ⟨h1, h2, h3, h4⟩ := emit_spec B x 0 rest
    obtain ⟨e, he⟩ : ∃ e, e = RLEString.emit B x 0 rest := ⟨_, rfl⟩
    rw [← he] at h1 h2 h3 h4
    have hpos := rle_pos (x :: rest)
    have hblk : ∀ q ∈ blk B 0 (rle (x :: rest)), 0 < q.1 := by
      intro q hq
      have : q.1 ∈ (blk B 0 (rle (x :: rest))).map (·.1) := List.mem_map_of_mem hq
      rw [blk_fst, List.mem_map] at this
      obtain ⟨p, hp, e⟩ := this
      rw [← e]; exact hpos p hp
    have hlen : (x :: rest).length = rstart (rle (x :: rest)) (rle (x :: rest)).length := by
      rw [← length_expand, expand_rle]
    have hruns : e.runs.length = (x :: rest).length := by
      rw [h3, length_un hblk, blk_length, blk_ustart, hlen]
    have hr : e.r = (rle (x :: rest)).length := by simpa using h2
    have hper : e.per.length = (x :: rest).length := by rw [h4, per_length _ hpos, expand_rle]
    have hdom : ∀ q ∈ rle (x :: rest), q.1 < 256 := fun q hq => hb _ (mem_rle hq)
    have hperdom : ∀ q ∈ e.per, q.1 < 256 := by
      intro q hq
      rw [h4, List.mem_flatMap] at hq
      obtain ⟨p, hp, hq⟩ := hq
      rw [List.mem_append, List.mem_replicate, List.mem_singleton] at hq
      rcases hq with ⟨_, rfl⟩ | rfl
      · exact hdom p hp
      · exact hdom p hp
    have hz : 0 ∉ e.heads := by
      rw [h1]; intro hm
      obtain ⟨q, hq, hq0⟩ := List.mem_map.1 hm
      exact h0 (hq0 ▸ mem_rle hq)
    have hall : (x :: rest).all (fun c => c != 0) = true := by
      rw [List.all_eq_true]; intro c hc
      have : c ≠ 0 := fun e => h0 (e ▸ hc)
      simpa using this
    have hb0 : ¬ (B = 0 ∧ rest.any (fun d => d != x) = true) := by omega
    have hheads : e.heads.length = e.r := by rw [h1, hr, List.length_map]
    have hcount : e.r = RleString.countRuns (x :: rest) := by rw [hr, countRuns_rle]
    refine ⟨{ B := B, n := (x :: rest).length, R := e.r, runs := (SparseBV.ofBools e.runs).assign,
              perLetter := (List.range 256).map (fun c => (SparseBV.ofBools ((e.per.filter (fun q => q.1 == c)).map (·.2))).assign),
              heads := e.heads }, ?_, rfl, ?_⟩
    · simp only [RleString.build, hall, loop_eq, ← he, if_neg hb0, Option.bind_eq_bind, Option.bind_some, Option.pure_def,
        huff_build hz, sum_letters 256 e.per hperdom, hper, hruns, hheads, ← hcount]
      simp [assertC]
    · have hs : ∀ c, c < 256 → ((List.range 256).map
          (fun c => (SparseBV.ofBools ((e.per.filter (fun q => q.1 == c)).map (·.2))).assign))[c]?
          = some (SparseBV.ofBools (un (symL (rle (x :: rest)) c))).assign := by
        intro c hc
        rw [List.getElem?_map, List.getElem?_range hc, Option.map_some, h4, per_filter]; rfl
      refine ⟨⟨hpos, hr, hB, h1, ?_, ?_, ?_, ?_⟩, hlen, by simp, ?_, ?_⟩
      · simp only [RleString.other, SparseBV.assign, ofBools_bits]; exact h3
      · intro c hc
        simp only [RleString.other, List.length_map, List.length_range] at hc
        simp only [RleString.other]
        rw [List.getElem?_map, hs c hc, Option.map_some]
        simp only [SparseBV.assign, ofBools_bits]; rfl
      · intro q hq
        simp only [RleString.other, List.length_map, List.length_range]
        exact hdom q hq
      · obtain ⟨l, R, hR⟩ := rle_cons x rest; rw [hR]; simp
      · have := represents_assign (SparseBV.ofBools e.runs)
        rw [ofBools_bits] at this
        rw [← h3]; exact this
      · intro c hc
        refine ⟨_, hs c hc, ?_⟩
        have := represents_assign (SparseBV.ofBools (un (symL (rle (x :: rest)) c)))
        rwa [ofBools_bits] at this

namespace RepB
variable {S : RleString} {R : List (Nat × Nat)}

theorem pos (h : RepB S R) : ∀ q ∈ R, 0 < q.2 := h.rep.pos
theorem heads (h : RepB S R) : S.heads = R.map (·.1) := h.rep.heads
theorem R_eq (h : RepB S R) : S.R = R.length := h.rep.r
theorem B_pos (h : RepB S R) : 0 < S.B := h.rep.b

theorem n_eq (h : RepB S R) : S.n = (expand R).length := by rw [h.n, length_expand]

theorem dom (h : RepB S R) {m : Nat} (hm : m < R.length) : (R[m]).1 < 256 := by
  have := h.rep.dom R[m] (List.getElem_mem _)
  simpa [RleString.other, h.len] using this

theorem headAt (h : RepB S R) {m : Nat} (hm : m < R.length) : HuffString.access S.heads m = some (R[m]).1 := by
  simp [HuffString.access, h.heads, hm, assertC]

theorem headRank (h : RepB S R) {m : Nat} (c : Nat) (hm : m ≤ R.length) : HuffString.rank S.heads m c = some (crank R c m) := by
  simp only [HuffString.rank, h.heads, List.length_map, hm, decide_true, assertC, if_true, Option.bind_eq_bind, Option.bind_some, wtRank,
    count_heads]

theorem gap (h : RepB S R) {bv : SparseBV} {m : Nat} (hm : m < R.length) (hbv : Represents bv (un (symL R (R[m]).1))) :
    bv.gapAt (crank R (R[m]).1 m) = some (R[m]).2 := by
  have h1 := sym_start h.pos (R[m]).1 m
  have h2 := sym_start h.pos (R[m]).1 (m+1)
  have e := csum_succ (R := R) (c := (R[m]).1) hm
  rw [if_pos rfl] at e
  rw [crank_succ _ hm, if_pos rfl] at h2
  rw [hbv.gapAt h1 h2 (by omega)]; congr 1; omega

theorem runAt (h : RepB S R) {m : Nat} (hm : m < R.length) : S.runAt m = some (R[m]).2 := by
  obtain ⟨bv, e, hbv⟩ := h.sym _ (h.dom hm)
  simp only [RleString.runAt, h.R_eq, hm, decide_true, assertC, if_true, Option.bind_eq_bind, Option.bind_some, h.headAt hm, e,
    h.headRank _ (Nat.le_of_lt hm), h.gap hm hbv]

theorem runInfo (h : RepB S R) {m : Nat} (hm : m < R.length) : S.runInfo m = some ((R[m]).1, (R[m]).2) := by
  obtain ⟨bv, e, hbv⟩ := h.sym _ (h.dom hm)
  have h2 : wtInverseSelect S.heads m = some (crank R (R[m]).1 m, (R[m]).1) := by
    rw [wtInverseSelect, h.heads]
    simp only [List.getElem?_map, List.getElem?_eq_getElem hm, Option.map_some, count_heads]
  simp only [RleString.runInfo, HuffString.inverseSelect, h2, Option.bind_eq_bind, Option.bind_some, e, h.gap hm hbv, Option.pure_def]

theorem blockStart (h : RepB S R) {m : Nat} (hm : m < R.length) : S.blockStart (m / S.B) = some (rstart R (m / S.B * S.B)) := by
  have hb : RLEString.afterSelect S.runs.bits (m / S.B) = some (rstart R (m / S.B * S.B)) := h.rep.blockStart hm
  rw [← hb, RleString.blockStart, RLEString.afterSelect]
  by_cases h0 : m / S.B = 0
  · rw [if_pos h0, if_pos h0]
  · rw [if_neg h0, if_neg h0, h.runs.select, Nat.sub_add_cancel (Nat.pos_of_ne_zero h0), h.runs.bits]

theorem block (h : RepB S R) {i m : Nat} (hm : m < R.length) (h1 : rstart R m ≤ i) (h2 : i < rstart R (m+1)) :
    S.runs.rank i = some (m / S.B) := by
  have hl := length_un h.rep.blkpos
  simp only [RleString.other] at hl
  rw [blk_length, blk_ustart] at hl
  have := rstart_mono R (show m + 1 ≤ R.length by omega)
  have hbp := h.rep.blkpos
  simp only [RleString.other] at hbp
  rw [h.runs.rank (by omega), count_take_un hbp (m := m) (by rw [blk_length]; exact hm)
    (by rw [blk_ustart]; exact h1) (by rw [blk_ustart]; exact h2), blk_count h.B_pos hm]

theorem scan (h : RepB S R) {i m : Nat} (hm : m < R.length) (h1 : rstart R m ≤ i) (h2 : i < rstart R (m+1)) :
    ∀ fuel k, k ≤ m → m + 1 - k < fuel →
      S.scan i fuel (rstart R k) k (i - rstart R k) =
        if i = rstart R m then some (rstart R m, m, 0) else some (rstart R (m+1), m + 1, i - rstart R m) := by
  intro fuel
  induction fuel with
  | zero => intro k _ hf; omega
  | succ fuel ih =>
    intro k hk hf
    rw [RleString.scan]
    rcases Nat.lt_or_eq_of_le hk with hlt | rfl
    · have hs := rstart_strict h.pos hlt (by omega)
      have hle := rstart_mono R (show k + 1 ≤ m by omega)
      rw [if_pos (by omega), h.runAt (show k < R.length by omega)]
      simp only [Option.bind_eq_bind, Option.bind_some, ← rstart_succ (show k < R.length by omega)]
      rw [if_pos (by omega)]
      exact ih (k+1) (by omega) (by omega)
    · by_cases e : i = rstart R k
      · rw [if_neg (by omega), if_pos e, ← e, Nat.sub_self]
      · rw [if_pos (by omega), if_neg e, h.runAt hm]
        simp only [Option.bind_eq_bind, Option.bind_some, ← rstart_succ hm]
        rw [if_neg (by omega)]
        obtain ⟨f, rfl⟩ : ∃ f, fuel = f + 1 := ⟨fuel - 1, by omega⟩
        rw [RleString.scan, if_neg (by omega)]

theorem scanStart (h : RepB S R) {i m : Nat} (hm : m < R.length) (h1 : rstart R m ≤ i) (h2 : i < rstart R (m+1)) :
    rstart R (m / S.B * S.B) ≤ i ∧
    S.scan i (S.R + 1) (rstart R (m / S.B * S.B)) (m / S.B * S.B) (i - rstart R (m / S.B * S.B)) =
      if i = rstart R m then some (rstart R m, m, 0) else some (rstart R (m+1), m + 1, i - rstart R m) := by
  have hle : m / S.B * S.B ≤ m := Nat.div_mul_le_self _ _
  have := rstart_mono R hle
  refine ⟨by omega, ?_⟩
  by_cases he : m + 1 - m / S.B * S.B < S.R + 1
  · exact h.scan hm h1 h2 _ _ hle he
  · exfalso; rw [h.R_eq] at he; omega

theorem locateRun (h : RepB S R) {i m : Nat} (hm : m < R.length) (h1 : rstart R m ≤ i) (h2 : i < rstart R (m+1)) :
    S.locateRun i = some (m, i - rstart R m) := by
  obtain ⟨hp, hs⟩ := h.scanStart hm h1 h2
  have hmR : m < S.R := by rw [h.R_eq]; exact hm
  simp only [RleString.locateRun, h.block hm h1 h2, Option.bind_eq_bind, Option.bind_some, h.blockStart hm, assertC, hp, decide_true, if_true,
    hs]
  by_cases e : i = rstart R m
  · rw [if_pos e, ← e]; simp [hmR]
  · rw [if_neg e]; simp only [Option.bind_some]
    rw [if_pos (by omega)]; simp [csub, hmR]

theorem runOf (h : RepB S R) {i m : Nat} (hm : m < R.length) (h1 : rstart R m ≤ i) (h2 : i < rstart R (m+1)) :
    S.runOf i = some (m, rstart R (m+1) - 1) := by
  obtain ⟨hp, hs⟩ := h.scanStart hm h1 h2
  have hmR : m < S.R := by rw [h.R_eq]; exact hm
  have hpos : 0 < rstart R (m+1) := by omega
  simp only [RleString.runOf, h.block hm h1 h2, Option.bind_eq_bind, Option.bind_some, h.blockStart hm, assertC, hp, decide_true, if_true,
    hs]
  by_cases e : i = rstart R m
  · rw [if_pos e, ← e]
    simp only [Option.bind_some, Nat.le_refl, decide_true, if_true, ge_iff_le, gt_iff_lt, Nat.lt_irrefl, if_false, h.runAt hm, Option.pure_def, e,
      ← rstart_succ hm, hpos, hmR, csub]
    rw [if_pos (by omega)]; rfl
  · rw [if_neg e]; simp only [Option.bind_some]
    have hge : i ≤ rstart R (m+1) := by omega
    have hc1 : csub (m + 1) 1 = some m := by simp [csub]
    simp only [ge_iff_le, hge, decide_true, if_true, Option.bind_some, gt_iff_lt, h2, hc1, Option.pure_def, hpos, hmR]
    rw [csub, if_pos (by omega)]; rfl

theorem access (h : RepB S R) {i m : Nat} (hm : m < R.length) (h1 : rstart R m ≤ i) (h2 : i < rstart R (m+1)) :
    S.access i = some (R[m]).1 := by
  have := rstart_mono R (show m + 1 ≤ R.length by omega)
  have hi : i < S.n := by rw [h.n]; omega
  simp only [RleString.access, hi, decide_true, assertC, if_true, Option.bind_eq_bind, Option.bind_some, h.runOf hm h1 h2, h.headAt hm]

theorem access_eq (h : RepB S R) {i : Nat} (hi : i < (expand R).length) : S.access i = some (expand R)[i] := by
  obtain ⟨m, hm, h1, h2⟩ := rstart_find R (i := i) (by rwa [← length_expand])
  rw [h.access hm h1 h2, ← getElem_expand hm h1 h2, List.getElem?_eq_getElem hi]

theorem rank (h : RepB S R) {i c : Nat} (hi : i ≤ (expand R).length) (hc : c < 256) :
    S.rank i c = some (((expand R).take i).count c) := by
  obtain ⟨bv, e, hbv⟩ := h.sym c hc
  have hn : i ≤ S.n := by rw [h.n_eq]; exact hi
  simp only [RleString.rank, hn, decide_true, assertC, if_true, Option.bind_eq_bind, Option.bind_some, e, SparseBV.size, hbv.u, sym_len h.pos]
  by_cases h0 : csum R c R.length = 0
  · rw [if_pos h0]
    have : ((expand R).take i).count c ≤ (expand R).count c := (List.take_sublist _ _).count_le _
    rw [count_expand] at this
    simp; omega
  · rw [if_neg h0, h.n_eq]
    by_cases hl : i = (expand R).length
    · rw [if_pos hl, hl, List.take_length, count_expand]; rfl
    · rw [if_neg hl]
      obtain ⟨m, hm, h1, h2⟩ := rstart_find R (i := i) (by rw [← length_expand]; omega)
      have hst := sym_start h.pos c m
      simp only [h.locateRun hm h1 h2, Option.bind_some, h.headRank c (Nat.le_of_lt hm), h.headAt hm]
      rw [count_take_expand c hm h1 (by omega), RLEString.afterSelect] at *
      by_cases hk : crank R c m = 0
      · rw [if_pos hk] at hst ⊢
        have : csum R c m = 0 := by simpa using hst.symm
        simp [this]
      · rw [if_neg hk] at hst ⊢
        rw [hbv.select, show crank R c m - 1 + 1 = crank R c m by omega]
        obtain ⟨p, hp, e2⟩ := Option.map_eq_some_iff.1 hst
        simp only [hp, Option.bind_some, Option.pure_def]; rw [e2]

theorem addRuns (h : RepB S R) (k i : Nat) (hk : i + k ≤ R.length) :
    S.addRuns k i (rstart R i) = some (rstart R (i + k)) := by
  induction k generalizing i with
  | zero => rfl
  | succ k ih =>
    rw [RleString.addRuns, h.runAt (show i < R.length by omega)]
    simp only [Option.bind_eq_bind, Option.bind_some]
    rw [← rstart_succ, ih (i+1) (by omega)]
    congr 2; omega

theorem toRun (h : RepB S R) {m : Nat} (hm : m < R.length) :
    (do let block ← cdiv m S.B
        let k ← S.blockStart block
        S.addRuns (m - block * S.B) (block * S.B) k) = some (rstart R m) := by
  have hB := h.B_pos
  have hle : m / S.B * S.B ≤ m := Nat.div_mul_le_self _ _
  rw [cdiv, if_neg (by omega)]
  simp only [Option.bind_eq_bind, Option.bind_some, h.blockStart hm]
  rw [h.addRuns _ _ (by omega), Nat.add_sub_cancel' hle]

theorem runRange (h : RepB S R) {m : Nat} (hm : m < R.length) : S.runRange m = some (rstart R m, rstart R (m+1) - 1) := by
  have ht := h.toRun hm
  have hp := rstart_strict h.pos (show m < m + 1 by omega) (by omega)
  have hl : m < S.heads.length := by rw [h.heads]; simpa using hm
  have hB := h.B_pos
  simp only [Option.bind_eq_bind, cdiv, if_neg (Nat.ne_of_gt hB), Option.bind_some, h.blockStart hm] at ht
  simp only [RleString.runRange, hl, decide_true, assertC, if_true, Option.bind_eq_bind, cdiv, if_neg (Nat.ne_of_gt hB), Option.bind_some,
    h.blockStart hm, ht, h.runAt hm, ← rstart_succ hm, csub]
  rw [if_pos (by omega)]; rfl

theorem headSelect (h : RepB S R) {c k : Nat} (hk : k < crank R c R.length) :
    ∃ (q : Nat) (hq : q < R.length), HuffString.select S.heads k c = some q ∧ (R[q]).1 = c ∧ crank R c q = k :=
  h.rep.wtSelect_heads hk

theorem select (h : RepB S R) {c k : Nat} (hc : c < 256) (hk : k < (expand R).count c) :
    ∃ p, S.select k c = some p ∧ (expand R)[p]? = some c ∧ ((expand R).take p).count c = k := by
  obtain ⟨bv, e, hbv⟩ := h.sym c hc
  rw [count_expand, ← symL_length_ustart] at hk
  obtain ⟨m, hm, h1, h2⟩ := ustart_find _ hk
  have hmr : m < crank R c R.length := by
    have : (symL R c).length = crank R c R.length := by
      rw [symL, List.length_map, ← List.countP_eq_length_filter, crank, List.take_length]
    omega
  obtain ⟨q, hq, e1, e2, e3⟩ := h.headSelect hmr
  have hlen := sym_len h.pos c
  rw [symL_length_ustart] at hk
  have hrank : bv.rank k = some m := by
    rw [hbv.rank (by omega), count_take_un (symL_pos h.pos c) hm h1 h2, symL_countP R c m (by omega)]
  have hoff : (if m = 0 then some k else (bv.select (m - 1)).bind (fun e => csub k (e+1)))
      = some (k - ustart (symL R c) m) := by
    by_cases h0 : m = 0
    · rw [if_pos h0, h0]; simp [ustart]
    · rw [if_neg h0]
      obtain ⟨m', rfl⟩ : ∃ m', m = m' + 1 := ⟨m - 1, by omega⟩
      rw [hbv.select, Nat.add_sub_cancel, sym_select h.pos c m' (by omega)]
      have := ustart_pos (symL_pos h.pos c) (m := m') (by omega)
      rw [Option.bind_some, csub, if_pos (by omega)]
      congr 1; omega
  have hstart : csum R c q = ustart (symL R c) m := by rw [← symL_ustart, e3]
  have hend : csum R c (q+1) = ustart (symL R c) (m+1) := by
    rw [← symL_ustart, crank_succ c hq, e2, if_pos rfl, e3]
  have hlen2 := csum_succ (R := R) (c := c) hq
  rw [if_pos e2] at hlen2
  have hr := rstart_succ hq
  have hp2 : rstart R q + (k - ustart (symL R c) m) < rstart R (q+1) := by omega
  refine ⟨rstart R q + (k - ustart (symL R c) m), ?_, ?_, ?_⟩
  · have ht := h.toRun hq
    have hB := h.B_pos
    have hsz : k < bv.size := by rw [SparseBV.size, hbv.u]; omega
    simp only [Option.bind_eq_bind, cdiv, if_neg (Nat.ne_of_gt hB), Option.bind_some, h.blockStart hq] at ht
    simp only [RleString.select, e, hsz, decide_true, assertC, if_true, Option.bind_eq_bind, cdiv, if_neg (Nat.ne_of_gt hB), Option.bind_some,
      hrank, hoff, e1, h.blockStart hq, ht, Option.pure_def]
  · rw [getElem_expand hq (by omega) hp2, e2]
  · rw [count_take_expand c hq (by omega) (by omega), if_pos e2, hstart]; omega

end RepB
end Sri
