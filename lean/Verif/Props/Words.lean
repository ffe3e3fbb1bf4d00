import Verif.Proofs.WordsForw
import Verif.Props.AllIndexes
import Verif.Props.RLEString
import Verif.Props.Psi
/-! # C71: queries in 64-bit machine arithmetic -/
namespace Sri
set_option autoImplicit false

/-- the classes that cut ranges at the sampled positions, counting in an `int` (sr_csa.h:516-543) -/
def IndexType.cutsRanges : IndexType → Bool
  | .srCSA | .srCSAValidMark | .srCSAValidArea => true
  | _ => false

/-- the queries `m` have every answer that the queries `q` have -/
def Queries.Follows (m q : Queries) : Prop :=
  (∀ P r, q.count P = some r → m.count P = some r) ∧ ∀ P l, q.locate P = some l → m.locate P = some l

theorem FunctorsSim.follows {ρ ν δ : Type} {F G : Functors ρ ν δ} {Inv : ρ → Prop} (h : FunctorsSim F G Inv) :
    (queries64 G).Follows ⟨F.count, F.locate⟩ :=
  ⟨fun P r e => (h.count P r e).1, fun P l e => (h.locate P l e).1⟩

/-- **C71**: for every text of fewer than 2^60 symbols (fewer than 2^31 - 1 for the three classes with an `int` counter) and every rate below
    2^63, the queries computed with 64-bit words that wrap around give every answer that the queries over the natural numbers give: for
    every pattern whatsoever. -/
theorem c71_same (t : IndexType) (T sa : List Nat) (hT : IsText T) (hsa : IsSA T sa) (hn : T.length < 2 ^ 60)
    (hint : t.cutsRanges = true → T.length < 2 ^ 31 - 1) (s : Nat) (hs : s < 2 ^ 63) :
    ∃ q m, buildIndex t T sa s = some q ∧ buildIndex64 t T sa s = some m ∧ m.Follows q := by
  have hW : T.length < W64 := by unfold W64; omega
  cases t
  case rIndex =>
    obtain ⟨I, T', hb, h, hc⟩ := RIndex.build_ok hT hsa
    have hf : Fits T'.length := by rw [hc.len]; exact hn
    exact ⟨_, _, by rw [buildIndex, hb]; rfl, by rw [buildIndex64, hb]; rfl, (h.sim hc hf).follows⟩
  case srIndex =>
    obtain ⟨I, T', K, hb, h, rfl, hc, -⟩ := SrIndex.build_ok hT hsa s
    have hf : Fits T'.length := by rw [hc.len]; exact hn
    exact ⟨_, _, by rw [buildIndex, hb]; rfl, by rw [buildIndex64, hb]; rfl, (h.sim hc hf fun r k hr hk => h.phiForRange64 hf hs hr hk).follows⟩
  case srIndexValidMark =>
    obtain ⟨I, T', K, V, hb, h, rfl, hc⟩ := SrIndexValid.build_ok hT hsa s
    have hf : Fits T'.length := by rw [hc.len]; exact hn
    exact ⟨_, _, by rw [buildIndex, hb]; rfl, by rw [buildIndex64, hb]; rfl,
      (h.sr.sim hc hf fun r k hr hk => h.phiForRange64 hf hs (h.phiMark64 hf) hr hk).follows⟩
  case srIndexValidArea =>
    obtain ⟨I, T', K, V, hb, h, rfl, hc⟩ := SrIndexValid.build_ok hT hsa s
    have hf : Fits T'.length := by rw [hc.len]; exact hn
    exact ⟨_, _, by rw [buildIndex, hb]; rfl, by rw [buildIndex64, hb]; rfl,
      (h.sr.sim hc hf fun r k hr hk => h.phiForRange64 hf hs (h.phiArea64 hf) hr hk).follows⟩
  case rcsaWithBWTRun =>
    obtain ⟨I, T', hb, h, hc⟩ := RCSABwt.build_ok hT hsa hW
    have hf : Fits T'.length := by rw [hc.len]; exact hn
    exact ⟨_, _, by rw [buildIndex, hb]; rfl, by rw [buildIndex64, hb]; rfl, (h.simBwt hc hf).follows⟩
  case rcsaWithPsiRun =>
    obtain ⟨I, T', hb, hc, h⟩ := RCSAPsi.build_ok hT hsa hW
    have hf : Fits T'.length := by rw [hc.len]; exact hn
    exact ⟨_, _, by rw [buildIndex, hb]; rfl, by rw [buildIndex64, hb]; rfl, (h.simPsi hc hf).follows⟩
  case srCSA =>
    obtain ⟨I, T', K, hb, h, hp, rfl, hc⟩ := SrCSA.build_ok hT hsa hW s
    have hf : Fits T'.length := by rw [hc.len]; exact hn
    have ho := h.posSim hp hf (by rw [hc.len]; exact hint rfl)
    exact ⟨_, _, by rw [buildIndex, hb]; rfl, by rw [buildIndex64, hb]; rfl,
      (h.sim ho hc hf fun r k hr hk => h.phiForRange64 ho (hp.samples_lt h.nav.text) hf hs hr hk).follows⟩
  case srCSASlim =>
    obtain ⟨I, T', K, hb, h, hp, rfl, hc⟩ := SrCSA.buildSlim_ok hT hsa hW s
    have hf : Fits T'.length := by rw [hc.len]; exact hn
    have ho := h.slimSim hp hf
    exact ⟨_, _, by rw [buildIndex, hb]; rfl, by rw [buildIndex64, hb]; rfl,
      (h.sim ho hc hf fun r k hr hk => h.phiForRange64 ho (hp.samples_lt h.nav.text) hf hs hr hk).follows⟩
  case srCSAValidMark =>
    obtain ⟨I, T', K, V, hb, h, hp, rfl, hc⟩ := SrCSAValid.build_ok hT hsa hW s
    have hf : Fits T'.length := by rw [hc.len]; exact hn
    have ho := h.csa.posSim hp hf (by rw [hc.len]; exact hint rfl)
    exact ⟨_, _, by rw [buildIndex, hb]; rfl, by rw [buildIndex64, hb]; rfl,
      (h.csa.sim ho hc hf fun r k hr hk => h.phiForRange64 ho hf hs (h.phiMark64 (hp.samples_lt h.csa.nav.text) hf) hr hk).follows⟩
  case srCSAValidArea =>
    obtain ⟨I, T', K, V, hb, h, hp, rfl, hc⟩ := SrCSAValid.build_ok hT hsa hW s
    have hf : Fits T'.length := by rw [hc.len]; exact hn
    have ho := h.csa.posSim hp hf (by rw [hc.len]; exact hint rfl)
    exact ⟨_, _, by rw [buildIndex, hb]; rfl, by rw [buildIndex64, hb]; rfl,
      (h.csa.sim ho hc hf fun r k hr hk => h.phiForRange64 ho hf hs (h.phiArea64 (hp.samples_lt h.csa.nav.text) hf) hr hk).follows⟩
  case srCSASlimValidMark =>
    obtain ⟨I, T', K, V, hb, h, hp, rfl, hc⟩ := SrCSAValid.buildSlim_ok hT hsa hW s
    have hf : Fits T'.length := by rw [hc.len]; exact hn
    have ho := h.csa.slimSim hp hf
    exact ⟨_, _, by rw [buildIndex, hb]; rfl, by rw [buildIndex64, hb]; rfl,
      (h.csa.sim ho hc hf fun r k hr hk => h.phiForRange64 ho hf hs (h.phiMark64 (hp.samples_lt h.csa.nav.text) hf) hr hk).follows⟩
  case srCSASlimValidArea =>
    obtain ⟨I, T', K, V, hb, h, hp, rfl, hc⟩ := SrCSAValid.buildSlim_ok hT hsa hW s
    have hf : Fits T'.length := by rw [hc.len]; exact hn
    have ho := h.csa.slimSim hp hf
    exact ⟨_, _, by rw [buildIndex, hb]; rfl, by rw [buildIndex64, hb]; rfl,
      (h.csa.sim ho hc hf fun r k hr hk => h.phiForRange64 ho hf hs (h.phiArea64 (hp.samples_lt h.csa.nav.text) hf) hr hk).follows⟩
  case srCSAWithPsiRun =>
    obtain ⟨I, T', K, hb, h, hp, rfl, hc⟩ := SrCSA.buildPsi_ok hT hsa hW s
    have hf : Fits T'.length := by rw [hc.len]; exact hn
    have ho := h.slimSim hp hf
    exact ⟨_, _, by rw [buildIndex, hb]; rfl, by rw [buildIndex64, hb]; rfl,
      (h.sim ho hc hf fun r k hr hk => h.phiForRange64 ho (hp.samples_lt h.nav.text) hf hs hr hk).follows⟩
  case psiValidMark =>
    obtain ⟨I, T', K, V, hb, h, hp, rfl, hc⟩ := SrCSAValid.buildPsi_ok hT hsa hW s
    have hf : Fits T'.length := by rw [hc.len]; exact hn
    have ho := h.csa.slimSim hp hf
    exact ⟨_, _, by rw [buildIndex, hb]; rfl, by rw [buildIndex64, hb]; rfl,
      (h.csa.sim ho hc hf fun r k hr hk => h.phiForRange64 ho hf hs (h.phiMark64 (hp.samples_lt h.csa.nav.text) hf) hr hk).follows⟩
  case psiValidArea =>
    obtain ⟨I, T', K, V, hb, h, hp, rfl, hc⟩ := SrCSAValid.buildPsi_ok hT hsa hW s
    have hf : Fits T'.length := by rw [hc.len]; exact hn
    have ho := h.csa.slimSim hp hf
    exact ⟨_, _, by rw [buildIndex, hb]; rfl, by rw [buildIndex64, hb]; rfl,
      (h.csa.sim ho hc hf fun r k hr hk => h.phiForRange64 ho hf hs (h.phiArea64 (hp.samples_lt h.csa.nav.text) hf) hr hk).follows⟩

theorem Queries.Follows.exact {m q : Queries} {T sa : List Nat} {f : List Nat → List Nat} (h : m.Follows q) (he : Exact q.count q.locate T sa f) :
    Exact m.count m.locate T sa f := by
  intro P hP
  obtain ⟨a, b, h1, h2, h3, h4⟩ := he P hP
  exact ⟨a, b, h.1 _ _ h1, h2, h3, h.2 _ _ h4⟩

/-- **C71**: computed with 64-bit words, Count answers with the suffix-array interval of the pattern and Locate with the occurrences, each
    once; the lengths agree. -/
theorem c71_exact (t : IndexType) (T sa : List Nat) (hT : IsText T) (hsa : IsSA T sa) (hn : T.length < 2 ^ 60)
    (hint : t.cutsRanges = true → T.length < 2 ^ 31 - 1) (s : Nat) (hs : s < 2 ^ 63) :
    ∃ m, buildIndex64 t T sa s = some m ∧ CountExact m.count T ∧ CountInterval m.count T sa ∧ LocateExact m.locate T ∧
      LocateLength m.count m.locate T := by
  obtain ⟨q, m, h1, h2, h3⟩ := c71_same t T sa hT hsa hn hint s hs
  obtain ⟨q', e1, e2⟩ := buildIndex_exact t hT hsa (by omega) s
  rw [h1, Option.some_inj] at e1
  subst e1
  have he := h3.exact e2
  refine ⟨m, h2, he.countExact, he.countInterval, ?_, he.locateLength (order_perm _)⟩
  intro P hP
  obtain ⟨a, b, -, -, hp, hl⟩ := he P hP
  exact ⟨_, hl, (order_perm _ _).trans hp⟩

-- the hypotheses hold of a text with repetitions, and the intermediate sums do wrap around
example : IsText exText ∧ IsSA exText exSA ∧ exText.length < 2 ^ 31 - 1 := ⟨exText_isText, exSA_isSA, by decide⟩
example : (buildIndex64 .srIndexValidArea exText exSA 3).bind (·.locate [1,2]) = some [0, 3, 8, 6] := by decide +kernel
example : (buildIndex64 .srCSA exText exSA 3).bind (·.locate [1,2]) = some [6, 8, 3, 0] := by decide +kernel
example : (buildIndex64 .psiValidMark exText exSA 6).bind (·.count [1,2]) = some (1, 5) := by decide +kernel
example : mul64 (W64 - 1) 3 = 2 ^ 64 - 3 ∧ add64 (5 + 1 + 11) (mul64 (W64 - 1) 3) = 14 := by decide

/-- **C71**, the run-length string by itself: built from any sequence of fewer than 2^61 symbols with any block size, and computing with
    64-bit words that wrap around, it answers access, rank and select, delivers the run of a position and splits a range in runs, with the
    answers of C21 and C22. -/
theorem c71_rle_string (xs : List Nat) (b : Nat) (hx : xs ≠ []) (hb : 1 ≤ b) (hn : xs.length < 2 ^ 61) :
    ∃ S, RLEString.build xs b = some S ∧
      (∀ i (h : i < xs.length), S.access64 i = some xs[i]) ∧
      (∀ i c, i ≤ xs.length → (∃ d ∈ xs, c ≤ d) → S.rank64 i c = some ((xs.take i).count c)) ∧
      (∀ k c, 1 ≤ k → k ≤ xs.count c → ∃ p, S.select64 k c = some p ∧ xs[p]? = some c ∧ (xs.take p).count c = k - 1) ∧
      (∀ i c, i ≤ xs.length → (∃ d ∈ xs, c ≤ d) → S.rankReport64 i c =
        some ((xs.take i).count c, symbolRunsBefore xs c (min (i + 1) xs.length), decide (xs[i]? = some c))) ∧
      (∀ i, i < xs.length → ∃ a e c, a ≤ i ∧ i < e ∧ IsRun xs a e c ∧
        S.rankAt64 i = some ((xs.take i).count c, c, runsBefore xs a, a, e, symbolRunsBefore xs c a)) ∧
      (∀ first last, first < last → last ≤ xs.length → ∃ L, S.splitInRuns64 first last = some L ∧
        (∀ r ∈ L, IsRun xs r.start r.stop r.c ∧ r.rnk = runsBefore xs r.start) ∧
        (∀ k (hk : k + 1 < L.length), L[k].stop = L[k+1].start) ∧
        (∃ r, L.head? = some r ∧ r.start ≤ first ∧ first < r.stop) ∧
        (∃ r, L.getLast? = some r ∧ last ≤ r.stop) ∧
        (∀ r ∈ L, r.start < last ∧ first < r.stop)) := by
  obtain ⟨S, h1, -, hs, h4, h5⟩ := c21_rleString_sequence xs b hx hb
  obtain ⟨S', h1', -, h3, -⟩ := build_rep hx hb
  obtain rfl := Option.some_inj.1 (h1.symm.trans h1')
  have hm : S.Small := h3.small (by rw [expand_rle]; exact hn)
  refine ⟨S, h1, fun i h => (hm.access i).eq (hs i h), fun i c hi hc => (hm.rank i c).eq (h4 i c hi hc), ?_,
    fun i c hi hc => (hm.rankReport i c).eq (c22_rank_report xs b S h1 i c hi hc), ?_, ?_⟩
  · intro k c hk hkc
    obtain ⟨p, e1, e2, e3⟩ := h5 k c hk hkc
    have : p < xs.length := (List.getElem?_eq_some_iff.1 e2).1
    exact ⟨p, hm.select k c e1 (by omega), e2, e3⟩
  · intro i hi
    obtain ⟨a, e, c, e1, e2, e3, -, -, e4⟩ := c22_run_of_position xs b S h1 i hi
    exact ⟨a, e, c, e1, e2, e3, (hm.rankAt i).eq e4⟩
  · intro first last hlt hle
    obtain ⟨L, e1, e2, e3, e4, e5, e6⟩ := c22_split_in_runs xs b S h1 first last (by omega) hle (by omega)
    exact ⟨L, (hm.splitInRuns first last).eq e1, e2, e3, e4, e5, e6 hlt⟩

example : exBwt ≠ [] ∧ exBwt.length < 2 ^ 61 := ⟨by decide, by decide⟩
example : (RLEString.build exBwt 2).bind (·.select64 3 2) = some 10 ∧ (RLEString.build exBwt 2).bind (·.rank64 7 1) = some 2 := by decide +kernel

/-- **C71**, the representation of psi by itself: built from any sequence of fewer than 2^61 symbols with any even sampling period, and
    computing with 64-bit words that wrap around, it answers rank, select and the run queries with the answers of C23 and C24. -/
theorem c71_psi (xs : List Nat) (s h : Nat) (hd : Dense xs s) (hs : 0 < s) (hh : 0 < h) (hn : xs.length < 2 ^ 61) :
    ∃ psi P, constructPsi xs (cumOf xs s) = some psi ∧ PsiCoreRLE.build (2*h) (cumOf xs s) psi = some P ∧
      (∀ c v, c < s → v ≤ xs.length → P.rank64 c v = some ((xs.take v).count c)) ∧
      (∀ c k, c < s → k < xs.count c → ∃ v, (positions xs c)[k]? = some v ∧ P.select64 c (k+1) = some v) ∧
      (∀ c k v a b : Nat, c < s → (positions xs c)[k]? = some v → IsRun xs a b c → a ≤ v → v < b →
        P.selectReport64 c (k+1) = some (v, a, b, symbolRunsBefore xs c a)) ∧
      (∀ c v, c < s → v ≤ xs.length → ∃ a b, P.rankReport64 c v = some ((xs.take v).count c, a, b, symbolRunsBefore xs c a) ∧
        min v (xs.length - 1) < b ∧
        (IsRun xs a b c ∧ (∀ i, min v (xs.length - 1) ≤ i → i < a → xs[i]? ≠ some c) ∨
          a = xs.length ∧ b = xs.length ∧ ∀ i, min v (xs.length - 1) ≤ i → xs[i]? ≠ some c)) ∧
      (∀ v, v ≤ xs.length → P.rankRun64 v = some (runsBefore xs v)) ∧
      (∀ c, c ≤ s → P.rankCharRun64 c = some (((List.range c).map (fun d => symbolRunsBefore xs d xs.length)).sum)) ∧
      (∀ c, c < s → ∃ l, P.traverse64 c = some l ∧ (∀ a b, (a, b) ∈ l ↔ IsRun xs a b c) ∧ l.Pairwise (fun x y => x.1 < y.1)) ∧
      (∀ c v, c < s → v < xs.length → P.exist64 c v = some (decide (xs[v]? = some c))) ∧
      (∀ lo hi, lo < hi → hi ≤ xs.length → ∃ l, P.splitInSortedRuns64 lo hi = some l ∧ SortedSplit xs lo hi l) ∧
      (∀ c f l, c < s → 1 ≤ f → f < l → l ≤ xs.count c + 1 →
        ∃ u v r, (positions xs c)[f-1]? = some u ∧ (positions xs c)[l-2]? = some v ∧ P.computeForwardRuns64 c f l = some r ∧
          SplitOf xs u (v+1) c r) := by
  have hW := W64_eq
  have hn' : xs.length < 2 ^ 64 := by omega
  obtain ⟨psi, P, h1, h2, a1, a2, a3, a4⟩ := c23_psiCoreRLE xs s h hd hs hh hn'
  obtain ⟨psi', P', h1', h2', b1, b2, -, b3, b4, b5, b6⟩ := c24_runQueries xs s h hd hs hh hn'
  obtain rfl := Option.some_inj.1 (h1.symm.trans h1')
  obtain rfl := Option.some_inj.1 (h2.symm.trans h2')
  obtain ⟨psi', g1, g2, g3⟩ := constructPsi_spec hd.1
  obtain rfl := Option.some_inj.1 (h1.symm.trans g1)
  obtain ⟨P', g4, hp⟩ := rle_build hd ⟨g2, g3⟩ hs hh (by omega)
  obtain rfl := Option.some_inj.1 (h2.symm.trans g4)
  have hct : ∀ c, xs.count c ≤ xs.length := fun c => List.count_le_length
  refine ⟨psi, P, h1, h2, fun c v hc hv => (hp.rank64 hn c v).eq (a1 c v hc hv), ?_, ?_, ?_,
    fun v hv => (hp.rankRun64 hn hd v).eq (b1 v hv), fun c hc => (hp.rankCharRun64 hn hd c).eq (b2 c hc), ?_, ?_, ?_, ?_⟩
  · intro c k hc hk
    obtain ⟨v, e1, e2⟩ := a2 c k hc hk
    have := hct c
    exact ⟨v, e1, (hp.select64 hn c (by omega)).eq e2⟩
  · intro c k v a b hc hv hr ha hb
    have hk : k < xs.count c := by rw [← positions_length]; exact (List.getElem?_eq_some_iff.1 hv).1
    have := hct c
    exact (hp.selectReport64 hn c (by omega)).eq (a3 c k v a b hc hv hr ha hb)
  · intro c v hc hv
    obtain ⟨a, b, e1, e2⟩ := a4 c v hc hv
    exact ⟨a, b, (hp.rankReport64 hn c v).eq e1, e2⟩
  · intro c hc
    rw [hp.traverse64 hn c]
    exact b3 c hc
  · intro c v hc hv
    rw [hp.exist64 hn c]
    exact b4 c v hc hv
  · intro lo hi h1 h2
    obtain ⟨l, e1, e2⟩ := b5 lo hi h1 h2
    exact ⟨l, (hp.splitInSortedRuns64 hn lo hi).eq e1, e2⟩
  · intro c f l hc e1 e2 e3
    have := hct c
    obtain ⟨u, v, r, g1, g2, g3, g4⟩ := b6 c f l hc e1 e2 e3
    exact ⟨u, v, r, g1, g2, (hp.computeForwardRuns64 hn c (by omega) (by omega)).eq g3, g4⟩

example : Dense exBwt 4 := ⟨by decide, by decide⟩
example : ((constructPsi exBwt (cumOf exBwt 4)).bind (PsiCoreRLE.build 2 (cumOf exBwt 4))).bind (·.select64 2 3) = some 10 ∧
    ((constructPsi exBwt (cumOf exBwt 4)).bind (PsiCoreRLE.build 2 (cumOf exBwt 4))).bind (·.rankRun64 4) = some 3 := by decide +kernel

end Sri
