import Verif.Proofs.SrCSAOps
/-! # Construction of SrCSA, SrCSASlim and SrCSAWithPsiRun -/
namespace Sri
set_option autoImplicit false

namespace SrCSA
variable {T sa T' : List Nat}

/-- what constructSrCSACommonsWithBWTRuns and the psi items leave behind -/
structure CommonsOK (T sa T' : List Nat) (s : Nat) (k : Commons) : Prop where
  base : BaseOK T sa T' k.base
  psi : PsiItemsOK T' sa k.base.alphabet.sigma k.psi
  sorted : k.idx.Pairwise (· < ·)
  lt : ∀ q ∈ k.idx, q < nrun T' sa
  samples : k.samples = k.idx.map (fun q => pv T' sa (hd T' sa q))
  sub : k.sub = k.idx.map (mkOf T' sa)
  sampling : HeadSampling T' sa s (keptHd T' sa k.idx)
  zero : ∃ q ∈ k.idx, saAt sa (hd T' sa q) = 0
  first : ∀ p, TailMark T' sa p → ∃ x, x ∈ k.idx.map (mkOf T' sa) ∧ x ≤ p
  last : ∀ p, TailMark T' sa p → ∃ x, x ∈ k.idx.map (mkOf T' sa) ∧ p ≤ x
  marksIdx : k.sortedMarksIdx = sortIndices (tailPos T' sa)

theorem runsAt_range {r : Nat} {idx : List Nat} (h : ∀ k ∈ idx, k < r) : runsAt (List.range r) idx = idx := by
  unfold runsAt
  conv_rhs => rw [← List.map_id idx]
  refine List.map_congr_left ?_
  intro k hk
  rw [List.getD_eq_getElem?_getD, List.getElem?_range (h k hk)]; rfl

theorem submarksBWT_eq {b : BaseItems} {p : PsiItems} (hb : BaseOK T sa T' b) (hp : PsiItemsOK T' sa b.alphabet.sigma p) {idx : List Nat}
    (hidx : ∀ q ∈ idx, q < nrun T' sa) : submarksBWT b p idx = some (idx.map (mkOf T' sa)) := by
  have hc := hb.compact
  have hn := hc.text.pos
  obtain ⟨hC, hnav⟩ := PsiNav.ok_of_items hb hp
  have key : ∀ q, q < nrun T' sa → ∃ k, k < nrun T' sa ∧ tl T' sa k = psiAt T' sa ((lfAt T' sa (hd T' sa q) + T'.length - 1) % T'.length) := by
    intro q hq
    obtain ⟨k, hk, he⟩ := tailAt_iff.1 (tail_before_head hc.text hc.isSA (headAt_hd (T := T') (sa := sa) hq))
    exact ⟨k, hk, he⟩
  set lk : Nat → Nat := fun q => lowerBound ((List.range (nrun T' sa)).map (tl T' sa)) (psiAt T' sa ((lfAt T' sa (hd T' sa q) + T'.length - 1) % T'.length)) with hlk
  have hlk' : ∀ q, q < nrun T' sa → lk q < nrun T' sa ∧ tl T' sa (lk q) = psiAt T' sa ((lfAt T' sa (hd T' sa q) + T'.length - 1) % T'.length) := by
    intro q hq
    obtain ⟨k, hk, he⟩ := key q hq
    have : lk q = k := by
      rw [hlk]; dsimp only
      rw [← he]
      exact RCSABwt.lowerBound_sorted RCSABwt.tls_sorted (by rw [List.getElem?_map, List.getElem?_range hk]; rfl)
    rw [this]; exact ⟨hk, he⟩
  unfold submarksBWT
  have hm : idx.mapM (fun i => (b.runs.first[i]?).bind (fun pos =>
      sampleToMarkLink (basicLF b.bwtRle b.alphabet.C) (psiApply p.core.select b.alphabet.C) (lowerBound b.runs.last) T'.length pos))
      = some (idx.map lk) := by
    refine PartOK.mapM_some ?_
    intro q hq
    have hqr := hidx q hq
    rw [hb.first, List.getElem?_map, List.getElem?_range hqr, Option.map_some, Option.bind_some]
    unfold sampleToMarkLink
    have hlt := lfAt_lt hc.isSA (hd_lt (T := T') (sa := sa) hqr)
    have hpsi := hnav.psiFn ((lfAt T' sa (hd T' sa q) + T'.length - 1) % T'.length) (Nat.mod_lt _ hn)
    unfold PsiNav.psiAt at hpsi
    simp only [basicLF_eq hb (hd_lt hqr), Option.bind_eq_bind, Option.bind_some, csub, show 1 ≤ lfAt T' sa (hd T' sa q) + T'.length by omega,
      if_true, cmod, show T'.length ≠ 0 by omega, if_false, hpsi, hb.last]
    rfl
  simp only [hC, Option.bind_eq_bind, Option.bind_some, hm]
  rw [PartOK.mapM_some (g := fun k => pv T' sa (tl T' sa k)), List.map_map]
  · congr 1
    refine List.map_congr_left ?_
    intro q hq
    change pv T' sa (tl T' sa (lk q)) = mkOf T' sa q
    rw [(hlk' q (hidx q hq)).2, pv_psi hc.isSA (Nat.mod_lt _ hn)]; rfl
  · intro k hk
    obtain ⟨q, hq, rfl⟩ := List.mem_map.1 hk
    rw [hb.lastTextPos, tailPos, List.getElem?_map, List.getElem?_range (hlk' q (hidx q hq)).1]; rfl

theorem commons_ok (hT : IsText T) (hsa : IsSA T sa) (hn : T.length < W64) (s : Nat) :
    ∃ k T', commons T sa s = some k ∧ CommonsOK T sa T' s k := by
  obtain ⟨b, T', hb, ok⟩ := base_build hT hsa
  obtain ⟨p, hp, pk⟩ := psiItems_build ok hn
  have hc := ok.compact
  obtain ⟨idx, f1, f2, f3, f4, f5, f6, f7⟩ := subsample_forw hc.text hc.isSA s (ord := List.range (nrun T' sa)) (lnk := RCSABwt.lnk T' sa)
    (List.Perm.refl _) (by
      intro k q hkq
      obtain ⟨hk, rfl⟩ := List.getElem?_eq_some_iff.1 hkq
      rw [List.length_range] at hk
      rw [List.getElem_range]
      obtain ⟨h1, h2⟩ := RCSABwt.lnk_spec hc.text hc.isSA hk
      exact ⟨_, List.getElem?_range h1, h2⟩)
  rw [List.length_range] at f3
  rw [runsAt_range f3] at f4 f5 f6 f7
  have hsm : idx.mapM (fun i => (headPos T' sa)[i]?) = some (idx.map (fun q => pv T' sa (hd T' sa q))) :=
    mapM_some (fun k hk => by rw [headPos, List.getElem?_map, List.getElem?_range (f3 k hk)]; rfl)
  have f1' : SrIndex.subsampleIdx s (headPos T' sa) (sortIndices (headPos T' sa)).reverse
      ((sortIndices (tailPos T' sa)).map (RCSABwt.lnk T' sa)) = some idx := f1
  refine ⟨{ base := b, psi := p, idx := idx, samples := idx.map (fun q => pv T' sa (hd T' sa q)), sub := idx.map (mkOf T' sa), sortedMarksIdx := sortIndices (tailPos T' sa) }, T', ?_, ok, pk, f2, f3, rfl, rfl, f4, f5, f6, f7, rfl⟩
  unfold commons
  simp only [hb, hp, RCSABwt.links_eq ok pk, Option.bind_eq_bind, Option.bind_some, ok.firstTextPos, f1', hsm, submarksBWT_eq ok pk f3]
  rfl

theorem CommonsOK.sub_lt {s : Nat} {k : Commons} (h : CommonsOK T sa T' s k) : ∀ v ∈ k.sub, v < T'.length := by
  intro v hv
  rw [h.sub] at hv
  obtain ⟨q, hq, rfl⟩ := List.mem_map.1 hv
  exact mkOf_lt h.base.compact.text h.base.compact.isSA (h.lt q hq)

theorem build_of {s : Nat} {k : Commons} (hk : commons T sa s = some k) (h : CommonsOK T sa T' s k) :
    ∃ I, build T sa s = some I ∧ I.OK T' sa k.idx ∧ I.PosStore T' sa k.idx ∧ I.s = s ∧ Compact T sa I.alphabet T' := by
  have hc := h.base.compact
  obtain ⟨hC, hnav⟩ := PsiNav.ok_of_items h.base h.psi
  have hpos : k.idx.mapM (fun i => k.base.runs.first[i]?) = some (k.idx.map (hd T' sa)) :=
    mapM_some (fun q hq => by rw [h.base.first, List.getElem?_map, List.getElem?_range (h.lt q hq)]; rfl)
  have hpl : ∀ v ∈ k.idx.map (hd T' sa), v < T'.length := by
    intro v hv
    obtain ⟨q, hq, rfl⟩ := List.mem_map.1 hv
    exact hd_lt (h.lt q hq)
  refine ⟨{ alphabet := k.base.alphabet, psi := k.psi.core, n := T'.length, samples := k.samples, marks := (List.range T'.length).map (fun i => decide (i ∈ k.sub)), markToSample := sortIndices k.sub, samplesIdx := (List.range T'.length).map (fun i => decide (i ∈ k.idx.map (hd T' sa))), cumRuns := [], s := s }, ?_, ?_, ⟨h.sorted, rfl, h.samples⟩, rfl, hc⟩
  · unfold build
    simp only [hk, Option.bind_eq_bind, Option.bind_some, h.base.n, bitVector_eq h.sub_lt, hpos, bitVector_eq hpl, hC]
    rfl
  · refine ⟨hnav, fun i hi => computeC_eq hc hi, h.sorted.imp (fun h => by omega), h.lt, by rw [← h.sub], ?_, h.sampling, h.zero, h.first, h.last⟩
    intro o m q h1 h2
    refine ⟨m, by dsimp only; rw [h.sub]; exact h1, ?_⟩
    dsimp only
    rw [h.samples, List.getElem?_map, h2]; rfl

theorem build_ok (hT : IsText T) (hsa : IsSA T sa) (hn : T.length < W64) (s : Nat) :
    ∃ I T' K, build T sa s = some I ∧ I.OK T' sa K ∧ I.PosStore T' sa K ∧ I.s = s ∧ Compact T sa I.alphabet T' := by
  obtain ⟨k, T', hk, h⟩ := commons_ok hT hsa hn s
  obtain ⟨I, e⟩ := build_of hk h
  exact ⟨I, T', k.idx, e⟩

/-! ## SrCSASlim -/

/-- numbers of runs of the symbols before `c` -/
def runSum (T sa : List Nat) (c : Nat) : Nat := ((List.range c).map (fun d => (symRuns (rle (bwtSeq T sa)) d).length)).sum

theorem runSum_succ (c : Nat) : runSum T sa (c+1) = runSum T sa c + (symRuns (rle (bwtSeq T sa)) c).length := by
  unfold runSum
  rw [List.range_succ, List.map_append, List.sum_append]; simp

theorem symRuns_heads (c : Nat) :
    (symRuns (rle (bwtSeq T sa)) c).map (fun q => lowerBound ((List.range (nrun T sa)).map (hd T sa)) q.1) =
      (List.range (nrun T sa)).filter (fun q => decide (sy T sa q = c)) := by
  rw [symRuns, List.map_map]
  have h1 : (List.range (rle (bwtSeq T sa)).length).filter (fun k => ((rle (bwtSeq T sa)).getD k (0,0)).1 == c) =
      (List.range (nrun T sa)).filter (fun q => decide (sy T sa q = c)) := by
    refine List.filter_congr ?_
    intro q hq
    have hq' : q < nrun T sa := List.mem_range.1 hq
    have hq2 : q < (rle (bwtSeq T sa)).length := hq'
    have : sy T sa q = ((rle (bwtSeq T sa)).getD q (0,0)).1 := by
      rw [sy_eq hq', List.getD_eq_getElem?_getD, List.getElem?_eq_getElem hq2]; rfl
    rw [this]; rfl
  rw [h1]
  conv_rhs => rw [← List.map_id ((List.range (nrun T sa)).filter (fun q => decide (sy T sa q = c)))]
  refine List.map_congr_left ?_
  intro q hq
  have hq' := List.mem_range.1 (List.mem_filter.1 hq).1
  exact RCSABwt.lowerBound_sorted RCSABwt.hds_sorted (k := q) (by rw [List.getElem?_map, List.getElem?_range hq']; rfl)

theorem sortedByAlphabet_eq {P : PsiCoreRLE} {s h : Nat} (hp : PsiOK P (bwtSeq T sa) s h) (m : Nat) :
    ∀ c, c + m = s → sortedByAlphabet P ((List.range (nrun T sa)).map (hd T sa)) (List.range' c m) (runSum T sa c) =
      some ((List.range' c m).flatMap (fun c => (List.range (nrun T sa)).filter (fun q => decide (sy T sa q = c))),
        (List.range' c m).map (fun c => runSum T sa (c+1))) := by
  induction m with
  | zero => intro c _; rfl
  | succ m ih =>
    intro c hc
    rw [List.range'_succ, sortedByAlphabet, hp.traverse (by omega)]
    simp only [Option.bind_eq_bind, Option.bind_some, ← runSum_succ, ih (c+1) (by omega), symRuns_heads, List.flatMap_cons, List.map_cons]
    rfl

theorem cumulative_eq {P : PsiCoreRLE} {s h : Nat} (hp : PsiOK P (bwtSeq T sa) s h) (m : Nat) :
    ∀ c, c + m = s → cumulative P (List.range' c m) (runSum T sa c) = some ((List.range' c m).map (fun c => runSum T sa (c+1))) := by
  induction m with
  | zero => intro c _; rfl
  | succ m ih =>
    intro c hc
    rw [List.range'_succ, cumulative, hp.countRuns (by omega)]
    simp only [Option.bind_eq_bind, Option.bind_some, ← runSum_succ, ih (c+1) (by omega), List.map_cons]
    rfl

/-- the loop that sorts the kept samples: values, indices and new places -/
theorem slimLoop_spec {bv : List Bool} {subs : List Nat} {p : Nat → Bool} {rk val : Nat → Nat} {m : Nat} {l : List Nat}
    (hbit : ∀ q ∈ l, bv[q]? = some (p q)) (hrk : ∀ q ∈ l, p q = true → bvRank bv q = some (rk q))
    (hval : ∀ q ∈ l, p q = true → subs[rk q]? = some (val q) ∧ rk q < m)
    (hinj : ∀ a ∈ l, ∀ b ∈ l, p a = true → p b = true → rk a = rk b → a = b) (hnd : l.Nodup) :
    ∀ (i cnt : Nat) (ts : List Nat), ts.length = m →
      ∃ t, slimLoop bv subs i cnt ts l = some ((l.filter p).map val,
          ((List.range l.length).filter (fun j => p (l.getD j 0))).map (i + ·), t) ∧ t.length = m ∧
        (∀ j q, (l.filter p)[j]? = some q → t[rk q]? = some (cnt + j)) ∧
        (∀ k, (∀ q ∈ l, p q = true → rk q ≠ k) → t[k]? = ts[k]?) := by
  induction l with
  | nil => intro i cnt ts hts; exact ⟨ts, rfl, hts, by simp, fun _ _ => rfl⟩
  | cons a l ih =>
    intro i cnt ts hts
    have ih := ih (fun q hq => hbit q (by simp [hq])) (fun q hq => hrk q (by simp [hq])) (fun q hq => hval q (by simp [hq]))
      (fun a ha b hb => hinj a (by simp [ha]) b (by simp [hb])) (List.nodup_cons.1 hnd).2
    have hal := (List.nodup_cons.1 hnd).1
    have hidx : ∀ x : Nat, ((List.range (a :: l).length).filter (fun j => p ((a :: l).getD j 0))).map (i + ·) =
        (if p a then [i] else []) ++ ((List.range l.length).filter (fun j => p (l.getD j 0))).map (i + 1 + ·) := by
      intro _
      rw [List.length_cons, List.range_succ_eq_map, List.filter_cons, List.filter_map]
      have : (fun j => p ((a :: l).getD j 0)) ∘ Nat.succ = (fun j => p (l.getD j 0)) := by funext j; simp
      rw [this]
      have h2 : ∀ L : List Nat, (L.map Nat.succ).map (i + ·) = L.map (i + 1 + ·) := by
        intro L; rw [List.map_map]; refine List.map_congr_left ?_; intro x _; simp; omega
      by_cases hp : p a = true
      · simp [hp, h2]
      · simp [hp, h2]
    have hidx := hidx 0
    rw [slimLoop, hbit a (by simp)]
    by_cases hp : p a = true
    · obtain ⟨hv, hr⟩ := hval a (by simp) hp
      obtain ⟨t, e1, e2, e3, e4⟩ := ih (i+1) (cnt+1) (ts.set (rk a) cnt) (by rw [List.length_set]; exact hts)
      refine ⟨t, ?_, e2, ?_, ?_⟩
      · simp only [hp, Option.bind_eq_bind, Option.bind_some, if_true, hrk a (by simp) hp, hv, assertC, hts, hr, decide_true, e1,
          List.filter_cons_of_pos, List.map_cons, hidx]
        rfl
      · intro j q hj
        rw [List.filter_cons_of_pos hp] at hj
        cases j with
        | zero =>
          rw [List.getElem?_cons_zero, Option.some_inj] at hj
          subst hj
          rw [e4 (rk a) (fun q hq hpq he => hal ((hinj q (by simp [hq]) a (by simp) hpq hp he) ▸ hq)), List.getElem?_set, if_pos rfl,
            if_pos (by omega)]; rfl
        | succ j =>
          rw [List.getElem?_cons_succ] at hj
          rw [e3 j q hj]; congr 1; omega
      · intro k hk
        rw [e4 k (fun q hq => hk q (by simp [hq])), List.getElem?_set, if_neg (hk a (by simp) hp)]
    · obtain ⟨t, e1, e2, e3, e4⟩ := ih (i+1) cnt ts hts
      refine ⟨t, ?_, e2, ?_, ?_⟩
      · simp only [Bool.not_eq_true] at hp
        simp only [hp, Option.bind_eq_bind, Option.bind_some, Bool.false_eq_true, if_false, e1, hidx, List.nil_append,
          not_false_eq_true, List.filter_cons_of_neg]
      · intro j q hj
        rw [List.filter_cons_of_neg hp] at hj
        exact e3 j q hj
      · intro k hk
        exact e4 k (fun q hq => hk q (by simp [hq]))

/-- the bit vector of the indices whose elements satisfy `p` -/
theorem bits_of_filter {l : List Nat} {p : Nat → Bool} :
    (List.range l.length).map (fun i => decide (i ∈ ((List.range l.length).filter (fun j => p (l.getD j 0))).map (0 + ·))) = l.map p := by
  conv_rhs => rw [← map_getD_range l, List.map_map]
  refine List.map_congr_left ?_
  intro i hi
  have hi := List.mem_range.1 hi
  change _ = p (l.getD i 0)
  by_cases hp : p (l.getD i 0) = true
  · rw [hp]
    refine decide_eq_true (List.mem_map.2 ⟨i, List.mem_filter.2 ⟨List.mem_range.2 hi, hp⟩, Nat.zero_add _⟩)
  · rw [Bool.eq_false_iff.2 hp]
    refine decide_eq_false ?_
    intro hc
    obtain ⟨x, hx, he⟩ := List.mem_map.1 hc
    rw [Nat.zero_add] at he
    subst he
    exact hp (List.mem_filter.1 hx).2

theorem buildSlim_of {s : Nat} {k : Commons} (hk : commons T sa s = some k) (h : CommonsOK T sa T' s k) :
    ∃ I, buildSlim T sa s = some I ∧ I.OK T' sa k.idx ∧ I.IdxStore T' sa k.idx ∧ I.s = s ∧ Compact T sa I.alphabet T' := by
  have hc := h.base.compact
  obtain ⟨hC, hnav⟩ := PsiNav.ok_of_items h.base h.psi
  set sg := k.base.alphabet.sigma with hsg
  have hperm := psiOrd_perm hc.text hc.isSA (RCSAPsi.sy_lt hc)
  have hsort := sortedByAlphabet_eq h.psi.core sg 0 (by omega)
  rw [← List.range_eq_range', ← h.base.first] at hsort
  have hsort' : sortedByAlphabet k.psi.core k.base.runs.first (List.range k.psi.core.parts.length) 0 =
      some (psiOrd T' sa sg, (List.range sg).map (fun c => runSum T' sa (c+1))) := by rw [h.psi.core.len]; exact hsort
  set ord := psiOrd T' sa sg with hord
  have hlen : ord.length = nrun T' sa := by rw [hperm.length_eq, List.length_range]
  have hnd : ord.Nodup := hperm.nodup_iff.2 List.nodup_range
  have hmo : ∀ q, q ∈ ord ↔ q < nrun T' sa := fun q => by rw [hperm.mem_iff, List.mem_range]
  have hbv := bitVector_eq (vals := k.idx) (n := ord.length) (fun q hq => by rw [hlen]; exact h.lt q hq)
  set bv := (List.range ord.length).map (fun i => decide (i ∈ k.idx)) with hbvd
  have hidxnd : k.idx.Nodup := h.sorted.imp (fun h => by omega)
  set rk : Nat → Nat := fun q => k.idx.countP (fun a => decide (a < q)) with hrkd
  have hrkget : ∀ q, q ∈ k.idx → k.idx[rk q]? = some q := fun q hq => strict_index (key := fun x => x) h.sorted hq
  obtain ⟨t, e1, e2, e3, -⟩ := slimLoop_spec (bv := bv) (subs := k.samples) (p := fun q => decide (q ∈ k.idx)) (rk := rk)
    (val := fun q => pv T' sa (hd T' sa q)) (m := k.idx.length) (l := ord)
    (fun q hq => by rw [hbvd, List.getElem?_map, List.getElem?_range (by rw [hlen]; exact (hmo q).1 hq)]; rfl)
    (fun q hq _ => by
      have := (hmo q).1 hq
      rw [bvRank, if_pos (by rw [hbvd]; simp; omega), hbvd, count_bits hidxnd (by omega)])
    (fun q _ hp => by
      have hp := of_decide_eq_true hp
      have hg := hrkget q hp
      exact ⟨by rw [h.samples, List.getElem?_map, hg]; rfl, (List.getElem?_eq_some_iff.1 hg).1⟩)
    (fun a _ b _ ha hb he => by
      have h1 := hrkget a (of_decide_eq_true ha)
      have h2 := hrkget b (of_decide_eq_true hb)
      rw [he, h2] at h1
      exact (Option.some_inj.1 h1).symm)
    hnd 0 0 (List.replicate k.idx.length 0) (by simp)
  have hlinks : (sortIndices k.sub).mapM (fun i => t[i]?) = some ((sortIndices k.sub).map (fun i => t.getD i 0)) := by
    refine mapM_some ?_
    intro i hi
    have hi' : i < t.length := by
      rw [(sortIndices_perm _).mem_iff, List.mem_range, h.sub, List.length_map] at hi; omega
    rw [List.getD_eq_getElem?_getD, List.getElem?_eq_getElem hi']; rfl
  have hbv2 := bitVector_eq (vals := ((List.range ord.length).filter (fun j => decide (ord.getD j 0 ∈ k.idx))).map (0 + ·))
    (n := k.base.runs.first.length) (by
      intro v hv
      obtain ⟨x, hx, rfl⟩ := List.mem_map.1 hv
      have := List.mem_range.1 (List.mem_filter.1 hx).1
      rw [h.base.first, List.length_map, List.length_range]; omega)
  have hfl : k.base.runs.first.length = ord.length := by rw [h.base.first, List.length_map, List.length_range, hlen]
  rw [hfl, bits_of_filter (p := fun q => decide (q ∈ k.idx))] at hbv2
  refine ⟨{ alphabet := k.base.alphabet, psi := k.psi.core, n := T'.length, samples := (ord.filter (fun q => decide (q ∈ k.idx))).map (fun q => pv T' sa (hd T' sa q)), marks := (List.range T'.length).map (fun i => decide (i ∈ k.sub)), markToSample := (sortIndices k.sub).map (fun i => t.getD i 0), samplesIdx := ord.map (fun q => decide (q ∈ k.idx)), cumRuns := (List.range sg).map (fun c => runSum T' sa (c+1)), s := s }, ?_, ?_, ⟨rfl, rfl, ?_, by simp [sg]⟩, rfl, hc⟩
  · unfold buildSlim
    simp only [hk, Option.bind_eq_bind, Option.bind_some, h.base.n, bitVector_eq h.sub_lt, hsort', hbv, e1, hlinks, hfl, hbv2]
    rw [hC]
    rfl
  · refine ⟨hnav, fun i hi => computeC_eq hc hi, hidxnd, h.lt, by rw [← h.sub], ?_, h.sampling, h.zero, h.first, h.last⟩
    intro o m q h1 h2
    have hqm := List.mem_of_getElem? h2
    have hml := (List.getElem?_eq_some_iff.1 h2).1
    have hm : m = rk q := by
      have := hrkget q hqm
      have hl := (List.getElem?_eq_some_iff.1 this).1
      rw [List.getElem?_eq_getElem hml, Option.some_inj] at h2
      rw [List.getElem?_eq_getElem hl, Option.some_inj] at this
      exact (List.Nodup.getElem_inj_iff hidxnd).1 (h2.trans this.symm)
    obtain ⟨j, hj⟩ := List.getElem?_of_mem (List.mem_filter (p := fun q => decide (q ∈ k.idx)).2 ⟨(hmo q).2 (h.lt q hqm), decide_eq_true hqm⟩)
    have ht := e3 j q hj
    rw [Nat.zero_add, ← hm] at ht
    refine ⟨j, ?_, ?_⟩
    · dsimp only
      rw [List.getElem?_map, h.sub, h1, Option.map_some, List.getD_eq_getElem?_getD, ht]; rfl
    · dsimp only
      rw [List.getElem?_map, hj]; rfl
  · intro c hc'
    dsimp only at hc' ⊢
    rw [List.getElem?_map, List.getElem?_range hc']; rfl

theorem buildSlim_ok (hT : IsText T) (hsa : IsSA T sa) (hn : T.length < W64) (s : Nat) :
    ∃ I T' K, buildSlim T sa s = some I ∧ I.OK T' sa K ∧ I.IdxStore T' sa K ∧ I.s = s ∧ Compact T sa I.alphabet T' := by
  obtain ⟨k, T', hk, h⟩ := commons_ok hT hsa hn s
  obtain ⟨I, e⟩ := buildSlim_of hk h
  exact ⟨I, T', k.idx, e⟩

/-! ## SrCSAWithPsiRun -/

theorem filter_runsAt {ord idx : List Nat} (hnd : ord.Nodup) (hs : idx.Pairwise (· < ·)) (hlt : ∀ k ∈ idx, k < ord.length) :
    ord.filter (fun q => decide (q ∈ runsAt ord idx)) = runsAt ord idx := by
  have hidx : idx = (List.range ord.length).filter (fun k => decide (k ∈ idx)) := by
    refine strict_ext hs (List.pairwise_lt_range.filter _) ?_
    intro k
    rw [List.mem_filter, List.mem_range, decide_eq_true_eq]
    exact ⟨fun h => ⟨hlt k h, h⟩, fun h => h.2⟩
  have hord := map_getD_range ord
  conv_lhs => rw [← hord, List.filter_map]
  conv_rhs => rw [runsAt, hidx]
  congr 1
  refine List.filter_congr ?_
  intro k hk
  have hk := List.mem_range.1 hk
  change decide (ord.getD k 0 ∈ _) = decide (k ∈ idx)
  rw [decide_eq_decide]
  have hg : ∀ j, j < ord.length → ord[j]? = some (ord.getD j 0) := fun j hj => by
    rw [List.getD_eq_getElem?_getD, List.getElem?_eq_getElem hj]; rfl
  constructor
  · intro hm
    rw [hord] at hm
    obtain ⟨j, hj, he⟩ := List.mem_map.1 hm
    have h1 := hg j (hlt j hj)
    have h2 := hg k hk
    rw [he, ← h2, List.getElem?_eq_getElem hk, List.getElem?_eq_getElem (hlt j hj), Option.some_inj] at h1
    rw [← (List.Nodup.getElem_inj_iff hnd).1 h1]; exact hj
  · intro h
    rw [hord]
    exact List.mem_map.2 ⟨k, h, rfl⟩

theorem runsAt_mem {ord idx : List Nat} (hnd : ord.Nodup) (hlt : ∀ k ∈ idx, k < ord.length) {k : Nat} (hk : k < ord.length) :
    ord.getD k 0 ∈ runsAt ord idx ↔ k ∈ idx := by
  have hg : ∀ j, j < ord.length → ord[j]? = some (ord.getD j 0) := fun j hj => by
    rw [List.getD_eq_getElem?_getD, List.getElem?_eq_getElem hj]; rfl
  constructor
  · intro hm
    obtain ⟨j, hj, he⟩ := List.mem_map.1 hm
    have h1 := hg j (hlt j hj)
    have h2 := hg k hk
    rw [he, ← h2, List.getElem?_eq_getElem hk, List.getElem?_eq_getElem (hlt j hj), Option.some_inj] at h1
    rw [← (List.Nodup.getElem_inj_iff hnd).1 h1]; exact hj
  · intro h
    exact List.mem_map.2 ⟨k, h, rfl⟩

theorem commonsPsi_ok (hT : IsText T) (hsa : IsSA T sa) (hn : T.length < W64) (s : Nat) :
    ∃ k T' K, commonsPsi T sa s = some k ∧ k.csa.OK T' sa K ∧ k.csa.IdxStore T' sa K ∧ k.csa.s = s ∧ Compact T sa k.csa.alphabet T' ∧
      k.sub = K.map (mkOf T' sa) ∧ k.tails = (psiOrd T' sa k.csa.alphabet.sigma).map (fun q => pv T' sa (tl T' sa q)) := by
  obtain ⟨b, T', hb, ok⟩ := base_build hT hsa
  obtain ⟨p, hp, pk⟩ := psiItems_build ok hn
  obtain ⟨hC, hnav⟩ := PsiNav.ok_of_items ok pk
  have hc := ok.compact
  have hn' : 0 < T'.length := hc.text.pos
  have hperm := psiOrd_perm hc.text hc.isSA (RCSAPsi.sy_lt hc)
  have hh := RCSAPsi.constructPsiRuns_eq ok (pos := hd T' sa) (fun q hq => ⟨hd_lt hq, bwt_hd hq⟩) (fun q => pv T' sa (hd T' sa q))
  have ht := RCSAPsi.constructPsiRuns_eq ok (pos := tl T' sa) (fun q hq => ⟨tl_lt hq, bwt_tl hq⟩) (fun q => pv T' sa (tl T' sa q))
  have hnext := fun m k h => psiOrd_next hc.text hc.isSA (RCSAPsi.sy_lt hc) (m := m) (k := k) h
  have hcum := cumulative_eq pk.core b.alphabet.sigma 0 (by omega)
  rw [← List.range_eq_range', ← pk.core.len] at hcum
  rw [pk.core.len] at hcum
  set ord := psiOrd T' sa b.alphabet.sigma with hord
  have hlen : ord.length = nrun T' sa := by rw [hperm.length_eq, List.length_range]
  have hpos : 0 < ord.length := by rw [hlen]; exact nrun_pos hn'
  have hnd : ord.Nodup := hperm.nodup_iff.2 List.nodup_range
  have hmo : ∀ q, q ∈ ord ↔ q < nrun T' sa := fun q => by rw [hperm.mem_iff, List.mem_range]
  have hg : ∀ j, j < ord.length → ord[j]? = some (ord.getD j 0) := fun j hj => by
    rw [List.getD_eq_getElem?_getD, List.getElem?_eq_getElem hj]; rfl
  have hlinks : linksPhiForwardPsi (ord.map (fun q => pv T' sa (tl T' sa q))) =
      some (sortIndices (ord.map (fun q => pv T' sa (tl T' sa q))),
        (sortIndices (ord.map (fun q => pv T' sa (tl T' sa q)))).map (fun k => (k + 1) % ord.length)) := by
    unfold linksPhiForwardPsi constructMarkToSampleLinks
    dsimp only
    rw [PartOK.mapM_some (g := fun k => (k + 1) % ord.length)]
    · rfl
    · intro m _
      rw [cmod, List.length_map, if_neg (by omega)]
  obtain ⟨idx, f1, f2, f3, f4, f5, f6, f7⟩ := subsample_forw hc.text hc.isSA s (lnk := fun k => (k + 1) % ord.length) hperm (by
      intro k q hkq
      obtain ⟨q', h1, -, h3⟩ := hnext k q hkq
      exact ⟨q', h1, h3⟩)
  have f1' : SrIndex.subsampleIdx s (ord.map (fun q => pv T' sa (hd T' sa q))) (sortIndices (ord.map (fun q => pv T' sa (hd T' sa q)))).reverse
      ((sortIndices (ord.map (fun q => pv T' sa (tl T' sa q)))).map (fun k => (k + 1) % ord.length)) = some idx := f1
  have hsm : idx.mapM (fun i => (ord.map (fun q => pv T' sa (hd T' sa q)))[i]?) =
      some ((runsAt ord idx).map (fun q => pv T' sa (hd T' sa q))) := by
    rw [mapM_some (g := fun k => pv T' sa (hd T' sa (ord.getD k 0))), runsAt, List.map_map]
    · rfl
    · intro k hk
      rw [List.getElem?_map, hg k (f3 k hk)]; rfl
  have hsub : submarksPsi (ord.map (fun q => pv T' sa (tl T' sa q))) ord.length idx = some ((runsAt ord idx).map (mkOf T' sa)) := by
    unfold submarksPsi
    rw [mapM_some (g := fun k => mkOf T' sa (ord.getD k 0)), runsAt, List.map_map]
    · rfl
    · intro k hk
      have hk' := f3 k hk
      have hm := Nat.mod_lt (k + ord.length - 1) hpos
      obtain ⟨q', h1, h2, h3⟩ := hnext _ _ (hg _ hm)
      rw [succ_pred_mod hk', hg k hk', Option.some_inj] at h1
      subst h1
      have := mkOf_after hc.isSA (tl_lt ((hmo _).1 (List.mem_of_getElem? (hg _ hm)))) h3
      simp only [csub, show 1 ≤ k + ord.length by omega, if_true, Option.bind_eq_bind, Option.bind_some, cmod,
        show ord.length ≠ 0 by omega, if_false, List.getElem?_map, hg _ hm, Option.map_some, this]
  have hKlt : ∀ q ∈ runsAt ord idx, q < nrun T' sa := by
    intro q hq
    obtain ⟨k, hk, rfl⟩ := List.mem_map.1 hq
    exact (hmo _).1 (List.mem_of_getElem? (hg k (f3 k hk)))
  have hKnd : (runsAt ord idx).Nodup := by rw [← filter_runsAt hnd f2 f3]; exact hnd.filter _
  have hsl : ∀ v ∈ (runsAt ord idx).map (mkOf T' sa), v < T'.length := by
    intro v hv
    obtain ⟨q, hq, rfl⟩ := List.mem_map.1 hv
    exact mkOf_lt hc.text hc.isSA (hKlt q hq)
  have hbv := bitVector_eq f3
  have hbits : (List.range ord.length).map (fun i => decide (i ∈ idx)) = ord.map (fun q => decide (q ∈ runsAt ord idx)) := by
    have : ∀ f : Nat → Bool, ord.map f = (List.range ord.length).map (fun i => f (ord.getD i 0)) := by
      intro f
      conv_lhs => rw [← map_getD_range ord, List.map_map]
      rfl
    rw [this]
    refine List.map_congr_left ?_
    intro i hi
    rw [decide_eq_decide, runsAt_mem hnd f3 (List.mem_range.1 hi)]
  rw [hbits] at hbv
  refine ⟨{ csa := { alphabet := b.alphabet, psi := p.core, n := T'.length, samples := (runsAt ord idx).map (fun q => pv T' sa (hd T' sa q)), marks := (List.range T'.length).map (fun i => decide (i ∈ (runsAt ord idx).map (mkOf T' sa))), markToSample := sortIndices ((runsAt ord idx).map (mkOf T' sa)), samplesIdx := ord.map (fun q => decide (q ∈ runsAt ord idx)), cumRuns := (List.range b.alphabet.sigma).map (fun c => runSum T' sa (c+1)), s := s }, tails := ord.map (fun q => pv T' sa (tl T' sa q)), sub := (runsAt ord idx).map (mkOf T' sa) }, T', runsAt ord idx, ?_, ?_, ⟨rfl, ?_, ?_, by simp⟩, rfl, hc, rfl, rfl⟩
  · unfold commonsPsi
    simp only [hb, hp, headPos, tailPos, hh, ht, ok.first, ok.firstTextPos, ok.last, ok.lastTextPos, Option.bind_eq_bind, Option.bind_some,
      hlinks, f1', hsm, List.length_map, hsub]
    rw [ok.n, bitVector_eq hsl, pk.core.len]
    simp only [Option.bind_some, hbv]
    rw [show (0:Nat) = runSum T' sa 0 from rfl, hcum]
    simp only [Option.bind_some, hC]
    rfl
  · refine ⟨hnav, fun i hi => computeC_eq hc hi, hKnd, hKlt, rfl, ?_, f4, f5, f6, f7⟩
    intro o m q h1 h2
    refine ⟨m, h1, ?_⟩
    dsimp only
    rw [List.getElem?_map, h2]; rfl
  · dsimp only
    rw [← hord, filter_runsAt hnd f2 f3]
  · intro c hc'
    dsimp only at hc' ⊢
    rw [List.getElem?_map, List.getElem?_range hc']; rfl

theorem buildPsi_ok (hT : IsText T) (hsa : IsSA T sa) (hn : T.length < W64) (s : Nat) :
    ∃ I T' K, buildPsi T sa s = some I ∧ I.OK T' sa K ∧ I.IdxStore T' sa K ∧ I.s = s ∧ Compact T sa I.alphabet T' := by
  obtain ⟨k, T', K, hk, h1, h2, h3, h4, -, -⟩ := commonsPsi_ok hT hsa hn s
  refine ⟨k.csa, T', K, ?_, h1, h2, h3, h4⟩
  unfold buildPsi
  rw [hk]; rfl

end SrCSA
end Sri
