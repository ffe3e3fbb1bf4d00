import Verif.Proofs.SrCSA
/-! # The functors of SrCSA (samples by position) and of SrCSASlim and SrCSAWithPsiRun (samples by run) -/
namespace Sri
set_option autoImplicit false

theorem filter_get {α : Type} {p : α → Bool} {L : List α} {j : Nat} {x : α} (h : L[j]? = some x) (hp : p x = true) :
    (L.filter p)[(L.take j).countP p]? = some x := by
  induction L generalizing j with
  | nil => simp at h
  | cons y L ih =>
    cases j with
    | zero =>
      rw [List.getElem?_cons_zero, Option.some_inj] at h
      subst h
      simp [hp]
    | succ j =>
      rw [List.getElem?_cons_succ] at h
      rw [List.take_succ_cons, List.countP_cons, List.filter_cons]
      by_cases hy : p y = true
      · rw [if_pos hy, if_pos hy, List.getElem?_cons_succ]; exact ih h
      · rw [if_neg hy, if_neg hy]; exact ih h

namespace SrCSA
variable {I : SrCSA} {T sa K : List Nat}

theorem keptHd_hd {q : Nat} (hK : ∀ q ∈ K, q < nrun T sa) (hq : q < nrun T sa) : keptHd T sa K (hd T sa q) ↔ q ∈ K := by
  constructor
  · rintro ⟨k, hk, he⟩
    rw [← hd_inj (hK k hk) hq he]; exact hk
  · intro h; exact ⟨q, h, rfl⟩

/-! ## SrCSA -/

/-- the samples of SrCSA -/
structure PosStore (I : SrCSA) (T sa K : List Nat) : Prop where
  sorted : K.Pairwise (· < ·)
  samplesIdx : I.samplesIdx = (List.range T.length).map (fun i => decide (i ∈ K.map (hd T sa)))
  samples : I.samples = K.map (fun q => pv T sa (hd T sa q))

theorem PosStore.mem (_h : I.PosStore T sa K) {y : Nat} : y ∈ K.map (hd T sa) ↔ keptHd T sa K y := List.mem_map

theorem PosStore.bit (h : I.PosStore T sa K) {y : Nat} (hy : y < T.length) : I.samplesIdx[y]? = some (decide (y ∈ K.map (hd T sa))) := by
  rw [h.samplesIdx, List.getElem?_map, List.getElem?_range hy]; rfl

theorem PosStore.heads (h : I.PosStore T sa K) (hK : ∀ q ∈ K, q < nrun T sa) : (K.map (hd T sa)).Pairwise (· < ·) := by
  rw [List.pairwise_map]
  refine h.sorted.imp_of_mem ?_
  intro a b _ hb hab
  exact hd_strict hab (hK b hb)

theorem PosStore.getSamplePos (h : I.PosStore T sa K) (hK : ∀ q ∈ K, q < nrun T sa) {y : Nat} (hy : y < T.length) :
    (keptHd T sa K y → I.getSamplePos y = some (some (pv T sa y))) ∧ (¬ keptHd T sa K y → I.getSamplePos y = some none) := by
  unfold SrCSA.getSamplePos
  rw [h.bit hy]
  constructor
  · intro hk
    have hm := h.mem.2 hk
    have hs := h.heads hK
    have hrank : bvRank I.samplesIdx y = some ((K.map (hd T sa)).countP (fun a => decide (a < y))) := by
      rw [h.samplesIdx, bvRank, if_pos (by simp; omega), count_bits (hs.imp (fun h => by omega)) (by omega)]
    have hidx := strict_index (key := fun x => x) hs hm
    have hv : I.samples[(K.map (hd T sa)).countP (fun a => decide (a < y))]? = some (pv T sa y) := by
      have hsam : I.samples = (K.map (hd T sa)).map (pv T sa) := by rw [h.samples, List.map_map]; rfl
      rw [hsam, List.getElem?_map, hidx]; rfl
    simp only [hm, decide_true, Option.bind_eq_bind, Option.bind_some, if_true, hrank, hv]; rfl
  · intro hk
    have hm : y ∉ K.map (hd T sa) := fun hc => hk (h.mem.1 hc)
    simp only [hm, decide_false, Option.bind_eq_bind, Option.bind_some, Bool.false_eq_true, if_false]; rfl

/-- runs of SrCSA: no sampled position after the first -/
def GoodPos (T sa K : List Nat) (r : FRun) : Prop := ∀ y, r.start < y → y < r.stop → ¬ keptHd T sa K y

def denPos (T sa : List Nat) (d : FData) (q : Nat) : Prop := d.pos = hd T sa q

theorem PosStore.ind (h : I.PosStore T sa K) {y : Nat} (hy : y < T.length) : (I.samplesIdx.getD y false = true) ↔ keptHd T sa K y := by
  rw [List.getD_eq_getElem?_getD, h.bit hy, Option.getD_some, decide_eq_true_eq, h.mem]

theorem PosStore.cutLoop (h : I.PosStore T sa K) {last : Nat} (hl : last ≤ T.length) :
    ∀ (k start : Nat), start < last →
      Nat.count (fun j => I.samplesIdx.getD j false = true) last = Nat.count (fun j => I.samplesIdx.getD j false = true) (start + 1) + k →
      ∃ l, I.cutLoop last k (Nat.count (fun j => I.samplesIdx.getD j false = true) (start + 1) + 1) start = some l ∧
        Images T.length id (GoodPos T sa K) start last l := by
  have hlen : I.samplesIdx.length = T.length := by rw [h.samplesIdx]; simp
  -- no one between two equal counts
  have hnone : ∀ a b, Nat.count (fun j => I.samplesIdx.getD j false = true) b = Nat.count (fun j => I.samplesIdx.getD j false = true) (a+1) →
      b ≤ T.length → ∀ y, a < y → y < b → ¬ keptHd T sa K y := by
    intro a b hab hb y h1 h2 hk
    have e1 := Nat.count_monotone (fun j => I.samplesIdx.getD j false = true) (show a + 1 ≤ y by omega)
    have e2 := Nat.count_monotone (fun j => I.samplesIdx.getD j false = true) (show y + 1 ≤ b by omega)
    rw [Nat.count_succ, if_pos ((h.ind (by omega)).2 hk)] at e2
    omega
  intro k
  induction k with
  | zero =>
    intro start h1 h2
    refine ⟨_, rfl, ?_, h1, hl, ?_, fun _ _ => rfl, ?_⟩
    · exact hnone start last h2 hl
    · change start + (last - start) ≤ last; omega
    · change start + (last - start) = last; omega
  | succ k ih =>
    intro start h1 h2
    obtain ⟨p, p1, p2, p3, p4⟩ := exists_of_count_between (fun j => I.samplesIdx.getD j false = true) (a := start + 1) (b := last)
      (k := Nat.count (fun j => I.samplesIdx.getD j false = true) (start + 1)) (Nat.le_refl _) (by omega)
    have hsel : bvSelect I.samplesIdx (Nat.count (fun j => I.samplesIdx.getD j false = true) (start + 1) + 1) = some p :=
      bvSelect_eq_some.2 ⟨by omega, p3, p4⟩
    have hsucc : Nat.count (fun j => I.samplesIdx.getD j false = true) (p + 1) =
        Nat.count (fun j => I.samplesIdx.getD j false = true) (start + 1) + 1 := by
      rw [Nat.count_succ, if_pos p3, p4]
    obtain ⟨l, e1, e2⟩ := ih p p2 (by omega)
    rw [hsucc] at e1
    refine ⟨{ start := start, stop := p, c := 0, rank := 0, isRunStart := false } :: l, ?_, ?_⟩
    · rw [SrCSA.cutLoop]
      simp only [hsel, Option.bind_eq_bind, Option.bind_some, e1]; rfl
    · refine ⟨?_, ?_, ?_, ?_, fun _ _ => rfl, ?_⟩
      · exact hnone start p p4 (by omega)
      · change start < p; omega
      · change p ≤ T.length; omega
      · change start + (p - start) ≤ last; omega
      · change Images _ _ _ (start + (p - start)) _ _
        rw [show start + (p - start) = p by omega]; exact e2

theorem PosStore.cutRange (h : I.PosStore T sa K) {a b : Nat} (hab : a < b) (hb : b ≤ T.length) :
    ∃ l, I.cutRange a b = some l ∧ Images T.length id (GoodPos T sa K) a b l := by
  have hlen : I.samplesIdx.length = T.length := by rw [h.samplesIdx]; simp
  have hm := Nat.count_monotone (fun j => I.samplesIdx.getD j false = true) (show a + 1 ≤ b by omega)
  obtain ⟨l, e1, e2⟩ := h.cutLoop hb (Nat.count (fun j => I.samplesIdx.getD j false = true) b -
    Nat.count (fun j => I.samplesIdx.getD j false = true) (a + 1)) a hab (by omega)
  refine ⟨l, ?_, e2⟩
  unfold SrCSA.cutRange
  simp only [bvRank_eq (show a + 1 ≤ I.samplesIdx.length by omega), bvRank_eq (show b ≤ I.samplesIdx.length by omega),
    Option.bind_eq_bind, Option.bind_some]
  exact e1

theorem kept_head (hK : ∀ q ∈ K, q < nrun T sa) {y : Nat} (h : keptHd T sa K y) : HeadAt T sa y := by
  obtain ⟨q, hq, rfl⟩ := h; exact headAt_hd (hK q hq)

theorem OK.posOps (h : I.OK T sa K) (hs : I.PosStore T sa K) :
    OpsOK I.posOps T sa K (GoodPos T sa K) (denPos T sa) (fun _ => True) where
  piece := fun r hr y h1 h2 hk => hr.inside y h1 h2 (kept_head h.lt hk)
  sampled := fun r _ h1 h2 hk => (hs.getSamplePos h.lt (by omega)).1 hk
  noSample := fun r _ h1 h2 hk => (hs.getSamplePos h.lt (by omega)).2 hk
  inside := fun r hr => hr
  goodUp := fun r hr _ y h1 h2 => hr y (by dsimp only at h1; omega) h2
  range := fun a b h1 h2 => hs.cutRange h1 h2
  creates := fun _ _ nr _ => ⟨_, rfl, fun q _ h1 _ _ _ _ => h1⟩
  navigate := fun d hd => by
    refine ⟨{ d with pos := psiAt T sa d.pos }, ?_, rfl, trivial⟩
    have := h.nav.psiFn d.pos hd
    unfold PsiNav.psiAt at this
    simp only [SrCSA.posOps, psiPos, this, Option.bind_eq_bind, Option.bind_some]; rfl
  data := fun d _ hd => hs.getSamplePos h.lt hd
  den := fun d q _ h1 => ⟨h1, Or.inl trivial⟩

/-! ## SrCSASlim and SrCSAWithPsiRun -/

/-- the samples of SrCSASlim and SrCSAWithPsiRun: the runs are ordered by symbol, then by position -/
structure IdxStore (I : SrCSA) (T sa K : List Nat) : Prop where
  samplesIdx : I.samplesIdx = (psiOrd T sa I.alphabet.sigma).map (fun q => decide (q ∈ K))
  samples : I.samples = ((psiOrd T sa I.alphabet.sigma).filter (fun q => decide (q ∈ K))).map (fun q => pv T sa (hd T sa q))
  cumRuns : ∀ c, c < I.alphabet.sigma →
    I.cumRuns[c]? = some (((List.range (c+1)).map (fun d => (symRuns (rle (bwtSeq T sa)) d).length)).sum)
  cumLen : I.cumRuns.length = I.alphabet.sigma

theorem IdxStore.getSampleIdx (h : I.IdxStore T sa K) {q : Nat} (hq : q < nrun T sa) (hs : sy T sa q < I.alphabet.sigma) :
    (q ∈ K → I.getSampleIdx (sy T sa q) (symIdx T sa q) true = some (some (pv T sa (hd T sa q)))) ∧
    (q ∉ K → I.getSampleIdx (sy T sa q) (symIdx T sa q) true = some none) := by
  have hcc : (if 0 < sy T sa q then I.cumRuns[sy T sa q - 1]? else some 0) =
      some (((List.range (sy T sa q)).map (fun d => (symRuns (rle (bwtSeq T sa)) d).length)).sum) := by
    by_cases h0 : 0 < sy T sa q
    · rw [if_pos h0, h.cumRuns _ (by omega), Nat.sub_add_cancel (by omega)]
    · rw [if_neg h0, show sy T sa q = 0 by omega]; rfl
  have hget := psiOrd_get hq hs
  have hlt := (List.getElem?_eq_some_iff.1 hget).1
  unfold SrCSA.getSampleIdx
  simp only [Bool.not_true, Bool.false_eq_true, if_false, hcc, Option.bind_eq_bind, Option.bind_some]
  generalize hj : ((List.range (sy T sa q)).map (fun d => (symRuns (rle (bwtSeq T sa)) d).length)).sum + symIdx T sa q = j at *
  have hbit : I.samplesIdx[j]? = some (decide (q ∈ K)) := by rw [h.samplesIdx, List.getElem?_map, hget]; rfl
  rw [hbit]
  constructor
  · intro hk
    have hrank : bvRank I.samplesIdx j = some (((psiOrd T sa I.alphabet.sigma).take j).countP (fun q => decide (q ∈ K))) := by
      rw [h.samplesIdx, bvRank, if_pos (by simp; omega), ← List.map_take, List.count_eq_countP, List.countP_map]
      congr 2
      funext x; simp
    have hv := filter_get (p := fun q => decide (q ∈ K)) hget (by simpa using hk)
    have hv' : I.samples[((psiOrd T sa I.alphabet.sigma).take j).countP (fun q => decide (q ∈ K))]? = some (pv T sa (hd T sa q)) := by
      rw [h.samples, List.getElem?_map, hv]; rfl
    simp only [hk, decide_true, Option.bind_some, Bool.not_true, Bool.false_eq_true, if_false, hrank, hv']; rfl
  · intro hk
    simp only [hk, decide_false, Option.bind_some, Bool.not_false, if_true]; rfl

/-- runs of the other two variants carry their symbol and index when they start at a head, and the flag tells whether they do (or else the
    start is not sampled) -/
structure GoodIdx (T sa K : List Nat) (r : FRun) : Prop where
  inside : ∀ y, r.start < y → y < r.stop → ¬ keptHd T sa K y
  flag : r.isRunStart = false → ¬ keptHd T sa K r.start
  head : r.isRunStart = true → ∃ q, q < nrun T sa ∧ r.start = hd T sa q ∧ r.c = sy T sa q ∧ r.rank = symIdx T sa q

structure StrongIdx (T sa K : List Nat) (d : FData) : Prop where
  flag : d.isRunStart = false → ¬ keptHd T sa K d.pos
  head : d.isRunStart = true → ∃ q, q < nrun T sa ∧ d.pos = hd T sa q ∧ d.c = sy T sa q ∧ d.rank = symIdx T sa q

/-- run data of the other two variants; the head of the run at position 0 may be flagged as if it were none -/
def denIdx (T sa : List Nat) (d : FData) (q : Nat) : Prop :=
  d.pos = hd T sa q ∧ d.c = sy T sa q ∧ d.rank = symIdx T sa q ∧ (d.isRunStart = true ∨ d.pos = 0)

theorem OK.sy_lt (h : I.OK T sa K) {q : Nat} (hq : q < nrun T sa) : sy T sa q < I.alphabet.sigma := by
  refine h.nav.dense.1 _ (List.mem_of_getElem? (i := hd T sa q) ?_)
  rw [bwtSeq_get (hd_lt hq), bwt_hd hq]

theorem OK.sampleIdx (h : I.OK T sa K) (hs : I.IdxStore T sa K) {pos c rank : Nat} {f : Bool}
    (h1 : f = false → ¬ keptHd T sa K pos)
    (h2 : f = true → ∃ q, q < nrun T sa ∧ pos = hd T sa q ∧ c = sy T sa q ∧ rank = symIdx T sa q) :
    (keptHd T sa K pos → I.getSampleIdx c rank f = some (some (pv T sa pos))) ∧
    (¬ keptHd T sa K pos → I.getSampleIdx c rank f = some none) := by
  cases f with
  | false =>
    refine ⟨fun hk => absurd hk (h1 rfl), fun _ => ?_⟩
    unfold getSampleIdx; rfl
  | true =>
    obtain ⟨q, hq, rfl, rfl, rfl⟩ := h2 rfl
    rw [keptHd_hd h.lt hq]
    exact hs.getSampleIdx hq (h.sy_lt hq)

theorem OK.psiData (h : I.OK T sa K) {d : FData} (hd' : d.pos < T.length) :
    ∃ d', I.psiData d = some d' ∧ d'.pos = psiAt T sa d.pos ∧ StrongIdx T sa K d' := by
  have hsa := h.nav.isSA
  have hlt := psiAt_lt hsa hd'
  have hbw : bwtAt T sa (psiAt T sa d.pos) = tx T (saAt sa d.pos) := by rw [bwtAt_eq hsa hlt, lf_psi hsa hd']
  obtain ⟨q, hq, f1, f2⟩ := run_find (T := T) (sa := sa) hlt
  have hsy : sy T sa q = tx T (saAt sa d.pos) := by rw [← bwt_run hq f1 f2, hbw]
  have hcs : tx T (saAt sa d.pos) < I.alphabet.sigma := by rw [← hsy]; exact h.sy_lt hq
  have hform := lf_formula h.nav.text hsa hlt
  rw [lf_psi hsa hd', hbw] at hform
  have hsub : csub d.pos (cumC T (tx T (saAt sa d.pos))) = some (((bwtSeq T sa).take (psiAt T sa d.pos)).count (tx T (saAt sa d.pos))) := by
    rw [bwtSeq_take _ _ (Nat.le_of_lt hlt), csub, if_pos (by omega)]
    unfold cnt
    congr 1; omega
  have hsel := h.nav.core.selectReport hcs (hsy ▸ isRun_run hq) f1 (show psiAt T sa d.pos < tl T sa q + 1 by omega)
  refine ⟨{ pos := psiAt T sa d.pos, c := tx T (saAt sa d.pos), rank := symbolRunsBefore (bwtSeq T sa) (tx T (saAt sa d.pos)) (hd T sa q), isRunStart := decide (psiAt T sa d.pos = hd T sa q) }, ?_, rfl, ?_, ?_⟩
  · unfold SrCSA.psiData
    simp only [h.sym _ hd', h.nav.C _ (Nat.le_of_lt hcs), hsub, hsel, Option.bind_eq_bind, Option.bind_some]; rfl
  · intro hf hk
    have hf := of_decide_eq_false hf
    exact inside_not_head hq (by omega) f2 (kept_head h.lt hk)
  · intro hf
    have hf := of_decide_eq_true hf
    exact ⟨q, hq, hf, hsy.symm, by change symbolRunsBefore _ _ _ = _; rw [symIdx, hsy]⟩

theorem OK.slimOps (h : I.OK T sa K) (hs : I.IdxStore T sa K) :
    OpsOK I.slimOps T sa K (GoodIdx T sa K) (denIdx T sa) (StrongIdx T sa K) where
  piece := fun r hr => ⟨fun y h1 h2 hk => hr.inside y h1 h2 (kept_head h.lt hk), fun hf hk => hr.flag hf (kept_head h.lt hk), hr.head⟩
  sampled := fun r hr _ _ hk => (h.sampleIdx hs hr.flag hr.head).1 hk
  noSample := fun r hr _ _ hk => (h.sampleIdx hs hr.flag hr.head).2 hk
  inside := fun r hr => hr.inside
  goodUp := fun r hr hlt => by
    refine ⟨fun y h1 h2 => hr.inside y (by dsimp only at h1; omega) h2, fun _ => ?_, fun hf => by cases hf⟩
    exact hr.inside _ (by dsimp only; omega) (by dsimp only; omega)
  range := fun a b h1 h2 => by
    obtain ⟨l, e1, e2⟩ := h.nav.core.splitInSortedRuns h.nav.dense.1 h1 (by rw [bwtSeq_length]; exact h2)
    refine ⟨l.map createRun, ?_, ?_⟩
    · simp only [SrCSA.slimOps, e1, Option.bind_eq_bind, Option.bind_some]; rfl
    · exact (sortedSplit_images h1 h2 e2).mono (fun r hr =>
        ⟨fun y h1 h2 hk => hr.inside y h1 h2 (kept_head h.lt hk), fun hf hk => hr.flag hf (kept_head h.lt hk), hr.head⟩)
  creates := fun range c nr step => by
    refine ⟨_, rfl, ?_⟩
    intro q _ h1 _ h3 h4 h5
    refine ⟨h1, h3.symm, h4, ?_⟩
    change decide (range.start ≠ nr.start.rstart) = true ∨ nr.start.rstart = 0
    rw [h1]
    by_cases hz : hd T sa q = 0
    · exact Or.inr hz
    · left; simp; omega
  navigate := fun d hd => h.psiData hd
  data := fun d hd _ => h.sampleIdx hs hd.flag hd.head
  den := fun d q hq hden => by
    obtain ⟨h1, h2, h3, h4⟩ := hden
    refine ⟨h1, ?_⟩
    by_cases hf : d.isRunStart = true
    · exact Or.inl ⟨fun hc => absurd hf (by simp [hc]), fun _ => ⟨q, hq, h1, h2, h3⟩⟩
    · refine Or.inr ⟨h4.resolve_left hf, ?_⟩
      simp only [SrCSA.slimOps, getSampleIdx, Bool.not_eq_true] at hf ⊢
      rw [hf]; rfl

end SrCSA
end Sri
