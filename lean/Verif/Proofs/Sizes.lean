import Verif.Model.Sizes
import Verif.Proofs.SamplingCount
import Verif.Proofs.SrValid
import Verif.Proofs.SrCSAValid
import Verif.Proofs.LegacyParts
/-! # Sizes of what a built index stores -/
namespace Sri
set_option autoImplicit false
section
variable {T sa K T' : List Nat}

theorem nrun_spec (hsa : IsSA T sa) (hn : 0 < T.length) : nrun T sa = runsBefore (bwtOf T sa) T.length := by
  have h := runsBefore_rstart (R := runsOf T sa) runsOf_pos (rle_alternating _) (Nat.le_refl (runsOf T sa).length)
  rw [expand_runsOf] at h
  have h2 : rstart (runsOf T sa) (runsOf T sa).length = T.length := rstart_runsOf
  rw [h2] at h
  rw [nrun, ← h]
  congr 1
  refine List.ext_getElem (by rw [List.length_map, List.length_range, bwtOf, List.length_map, hsa.length]) ?_
  intro i h1 h2
  rw [List.length_map, List.length_range] at h1
  have hi : i < sa.length := by rw [hsa.length]; exact h1
  have hs : sa[i] = saAt sa i := by rw [saAt, List.getD_eq_getElem?_getD, List.getElem?_eq_getElem hi]; rfl
  simp only [bwtOf, List.getElem_map, List.getElem_range, hs]
  rfl

theorem div_bound {s n k : Nat} (h : (s + 1) * k ≤ 2 * (n - 1) + (s + 1) * 4) : k ≤ 2 * (n - 1) / (s + 1) + 4 := by
  have h1 : k ≤ (2 * (n - 1) + (s + 1) * 4) / (s + 1) := by
    rw [Nat.le_div_iff_mul_le (by omega), Nat.mul_comm]; exact h
  rwa [Nat.add_mul_div_left _ _ (by omega)] at h1

theorem nodup_length_le {r : Nat} (hd : K.Nodup) (h : ∀ k ∈ K, k < r) : K.length ≤ r := by
  have := (List.subperm_of_subset hd (l₂ := List.range r) (fun k hk => List.mem_range.2 (h k hk))).length_le
  rwa [List.length_range] at this

theorem nodup_length_eq {r : Nat} (hd : K.Nodup) (h : ∀ k ∈ K, k < r) (hf : ∀ k, k < r → k ∈ K) : K.length = r := by
  have := ((List.perm_ext_iff_of_nodup hd (List.nodup_range (n := r))).2 (fun k =>
    ⟨fun hk => List.mem_range.2 (h k hk), fun hk => hf k (List.mem_range.1 hk)⟩)).length_eq
  rwa [List.length_range] at this

/-- what the sizes of a sub-sampled index satisfy, for the `k` kept samples -/
structure SubSizes (z : Stored) (n r s k : Nat) : Prop where
  samples : z.samples = k
  marks : z.marks = k
  links : z.links = k
  sampled : z.sampled = k
  few : k ≤ 2 * (n - 1) / (s + 1) + 4
  runs : k ≤ r
  all : s ≤ 1 → k = r

/-- what the sizes of an index that keeps all the samples satisfy -/
structure AllSizes (z : Stored) (r : Nat) : Prop where
  samples : z.samples = r
  marks : z.marks = r
  links : z.links = r
  sampled : z.sampled = 0

theorem SrIndex.OK.sizes {I : SrIndex} (h : I.OK T sa K) (hf : (I.s + 1) * K.length ≤ 2 * (T.length - 1) + (I.s + 1) * 4) :
    SubSizes I.stored T.length (nrun T sa) I.s K.length where
  samples := by show I.base.samples.length = _; rw [h.samples, List.length_map]
  marks := by
    show I.base.marks.count true = _
    rw [h.marks, count_true_mem (subPos_nodup h.nav.text.pos h.nav.isSA h.nodup h.lt)]
    · simp [subPos]
    · intro v hv
      obtain ⟨k, -, rfl⟩ := mem_subPos.1 hv
      exact pv_lt h.nav.text.pos
  links := by show I.base.markToSample.length = _; rw [h.links, sortIndices_length]; simp [subPos]
  sampled := by show I.samplesIdx.count true = _; rw [h.samplesIdx, count_true_mem h.nodup h.lt]
  few := div_bound hf
  runs := nodup_length_le h.nodup h.lt
  all := fun hs => nodup_length_eq h.nodup h.lt (fun k hk => by
    by_contra hc
    obtain ⟨a, b, -, -, g1, g2, g3⟩ := h.sampling.2 (tl T sa k) (tailAt_tl hk) (fun hc' => hc ((h.kept_tl hk).1 hc'))
    omega)

theorem SrCSA.OK.sizes {I : SrCSA} (h : I.OK T sa K) (hs : I.samples.length = K.length) (hi : I.samplesIdx.count true = K.length)
    (hl : I.markToSample.length = K.length) (hf : (I.s + 1) * K.length ≤ 2 * (T.length - 1) + (I.s + 1) * 4) :
    SubSizes I.stored T.length (nrun T sa) I.s K.length where
  samples := hs
  marks := by
    show I.marks.count true = _
    rw [h.marks, count_true_mem h.sub_nodup, List.length_map]
    intro v hv
    obtain ⟨q, hq, rfl⟩ := List.mem_map.1 hv
    exact mkOf_lt h.nav.text h.nav.isSA (h.lt q hq)
  links := hl
  sampled := hi
  few := div_bound hf
  runs := nodup_length_le h.nodup h.lt
  all := fun hs => nodup_length_eq h.nodup h.lt (fun k hk => by
    by_contra hc
    obtain ⟨a, b, -, -, g1, g2, g3⟩ := h.sampling.2 (hd T sa k) (headAt_hd hk) (fun ⟨q, hq, he⟩ =>
      hc (hd_inj (h.lt q hq) hk he ▸ hq))
    omega)

theorem SrCSA.PosStore.sizes {I : SrCSA} (h : I.PosStore T sa K) (hK : ∀ q ∈ K, q < nrun T sa) :
    I.samples.length = K.length ∧ I.samplesIdx.count true = K.length := by
  refine ⟨by rw [h.samples, List.length_map], ?_⟩
  rw [h.samplesIdx, count_true_mem, List.length_map]
  · exact (h.heads hK).imp (fun h => by omega)
  · intro v hv
    obtain ⟨q, hq, rfl⟩ := List.mem_map.1 hv
    exact hd_lt (hK q hq)

theorem SrCSA.IdxStore.sizes {I : SrCSA} (h : I.IdxStore T sa K) (hK : ∀ q ∈ K, q < nrun T sa) (hd : K.Nodup)
    (hp : (psiOrd T sa I.alphabet.sigma).Perm (List.range (nrun T sa))) :
    I.samples.length = K.length ∧ I.samplesIdx.count true = K.length := by
  have hl : ((psiOrd T sa I.alphabet.sigma).filter (fun q => decide (q ∈ K))).length = K.length := by
    refine List.Perm.length_eq ((List.perm_ext_iff_of_nodup ((hp.nodup_iff.2 List.nodup_range).filter _) hd).2 ?_)
    intro q
    rw [List.mem_filter, hp.mem_iff, List.mem_range]
    exact ⟨fun h => by simpa using h.2, fun h => ⟨hK q h, by simpa using h⟩⟩
  refine ⟨by rw [h.samples, List.length_map, hl], ?_⟩
  rw [h.samplesIdx, List.count_eq_countP, List.countP_map, ← hl, List.countP_eq_length_filter]
  congr 1
  refine List.filter_congr ?_
  intro q _
  by_cases hq : q ∈ K <;> simp [hq]

theorem mapM_length {α β : Type} {f : α → Option β} {l : List α} : ∀ {r : List β}, l.mapM f = some r → r.length = l.length := by
  induction l with
  | nil => intro r h; rw [List.mapM_nil] at h; injection h with h; subst h; rfl
  | cons x l ih =>
    intro r h
    rw [List.mapM_cons] at h
    obtain ⟨y, -, h⟩ := Option.bind_eq_some_iff.1 h
    obtain ⟨ys, hys, h⟩ := Option.bind_eq_some_iff.1 h
    injection h with h
    subst h
    rw [List.length_cons, List.length_cons, ih hys]

theorem SrIndex.build_sizes (hT : IsText T) (hsa : IsSA T sa) (s : Nat) :
    ∃ I k, SrIndex.build T sa s = some I ∧ SubSizes I.stored T.length (nrun T sa) s k := by
  obtain ⟨I, T', K, hb, ok, rfl, hc, hidx⟩ := SrIndex.build_ok hT hsa s
  have hf := subsampleIdx_count (M := T'.length - 1) (tailPos_nodup hc.isSA) (fun v hv => by
    have := tailPos_lt hc.text.pos v hv; omega) hidx
  have := ok.sizes hf
  rw [hc.len, hc.nrun_eq hT hsa] at this
  exact ⟨I, _, hb, this⟩

/-- the validity bits are as many as the marks; the areas as the cleared bits -/
structure ValidSizes (z : Stored) (cleared : Nat) : Prop where
  bits : z.validBits = z.samples
  areas : z.areas = cleared
  le : z.areas ≤ z.samples

theorem SrIndexValid.build_sizes (hT : IsText T) (hsa : IsSA T sa) (s : Nat) :
    ∃ I k, SrIndexValid.build T sa s = some I ∧ SubSizes I.stored T.length (nrun T sa) s k ∧ ValidSizes I.stored (I.validMarks.count false) := by
  obtain ⟨I, T', K, V, hb, ok, hs, hc⟩ := SrIndexValid.build_ok hT hsa s
  obtain ⟨J, k, hJ, hz⟩ := SrIndex.build_sizes hT hsa s
  have hIJ : I.sr = J := by
    unfold SrIndexValid.build at hb
    obtain ⟨J', hJ', hb⟩ := Option.bind_eq_some_iff.1 hb
    rw [hJ, Option.some_inj] at hJ'
    obtain ⟨b, -, hb⟩ := Option.bind_eq_some_iff.1 hb
    obtain ⟨_, -, hb⟩ := Option.bind_eq_some_iff.1 hb
    obtain ⟨_, -, hb⟩ := Option.bind_eq_some_iff.1 hb
    obtain ⟨_, -, hb⟩ := Option.bind_eq_some_iff.1 hb
    obtain ⟨_, -, hb⟩ := Option.bind_eq_some_iff.1 hb
    obtain ⟨_, -, hb⟩ := Option.bind_eq_some_iff.1 hb
    obtain ⟨_, -, hb⟩ := Option.bind_eq_some_iff.1 hb
    injection hb with hb
    rw [← hb, hJ']
  have hVn : (V.map (·.1)).Nodup := by
    rw [List.Nodup, List.pairwise_map]; exact ok.sorted.imp (fun h => by omega)
  have hVl : ∀ v ∈ V.map (·.1), v < K.length := by
    intro v hv
    obtain ⟨q, hq, rfl⟩ := List.mem_map.1 hv
    have := (List.getElem?_eq_some_iff.1 (ok.entry q hq).1).1
    rw [(sortBy_perm _ _).length_eq] at this
    simpa [subPos] using this
  have hK : I.stored.samples = K.length := by
    show I.sr.base.samples.length = _
    rw [ok.sr.samples, List.length_map]
  have hcnt := count_false_mem hVn hVl
  rw [← ok.marks, List.length_map] at hcnt
  have har : I.stored.areas = V.length := by show I.validAreas.length = _; rw [ok.areas.choose_spec.2, List.length_map]
  refine ⟨I, k, hb, ⟨?_, ?_, ?_, ?_, hz.few, hz.runs, hz.all⟩, ?_, ?_, ?_⟩
  · rw [← hz.samples, ← hIJ]; rfl
  · rw [← hz.marks, ← hIJ]; rfl
  · rw [← hz.links, ← hIJ]; rfl
  · rw [← hz.sampled, ← hIJ]; rfl
  · rw [hK]; show I.validMarks.length = _; rw [ok.marks, List.length_map, List.length_range]
  · rw [har, hcnt]
  · rw [har, hK, ← hcnt]
    refine Nat.le_trans List.count_le_length ?_
    rw [ok.marks, List.length_map, List.length_range]

namespace SrCSA

theorem commons_few {s : Nat} {k : Commons} (hk : commons T sa s = some k) (h : CommonsOK T sa T' s k) :
    (s + 1) * k.idx.length ≤ 2 * (T'.length - 1) + (s + 1) * 4 := by
  have hc := h.base.compact
  have hfp := h.base.firstTextPos
  unfold commons at hk
  obtain ⟨b, -, hk⟩ := Option.bind_eq_some_iff.1 hk
  obtain ⟨p, -, hk⟩ := Option.bind_eq_some_iff.1 hk
  obtain ⟨links, -, hk⟩ := Option.bind_eq_some_iff.1 hk
  obtain ⟨idx, hidx, hk⟩ := Option.bind_eq_some_iff.1 hk
  obtain ⟨_, -, hk⟩ := Option.bind_eq_some_iff.1 hk
  obtain ⟨_, -, hk⟩ := Option.bind_eq_some_iff.1 hk
  injection hk with hk
  subst hk
  dsimp only at hfp ⊢
  rw [hfp] at hidx
  exact subsampleIdx_count_desc (M := T'.length - 1) (headPos_nodup hc.isSA) (fun v hv => by
    have := headPos_lt hc.text.pos v hv; omega) hidx

theorem build_links {s : Nat} {I : SrCSA} {k : Commons} (hk : commons T sa s = some k) (hb : build T sa s = some I) :
    I.markToSample.length = k.sub.length := by
  unfold build at hb
  rw [hk] at hb
  simp only [Option.bind_eq_bind, Option.bind_some] at hb
  obtain ⟨_, -, hb⟩ := Option.bind_eq_some_iff.1 hb
  obtain ⟨_, -, hb⟩ := Option.bind_eq_some_iff.1 hb
  obtain ⟨_, -, hb⟩ := Option.bind_eq_some_iff.1 hb
  obtain ⟨_, -, hb⟩ := Option.bind_eq_some_iff.1 hb
  injection hb with hb
  rw [← hb]
  exact sortIndices_length _

theorem buildSlim_links {s : Nat} {I : SrCSA} {k : Commons} (hk : commons T sa s = some k) (hb : buildSlim T sa s = some I) :
    I.markToSample.length = k.sub.length := by
  unfold buildSlim at hb
  rw [hk] at hb
  simp only [Option.bind_eq_bind, Option.bind_some] at hb
  obtain ⟨_, -, hb⟩ := Option.bind_eq_some_iff.1 hb
  obtain ⟨⟨_, _⟩, -, hb⟩ := Option.bind_eq_some_iff.1 hb
  obtain ⟨_, -, hb⟩ := Option.bind_eq_some_iff.1 hb
  obtain ⟨⟨_, _, _⟩, -, hb⟩ := Option.bind_eq_some_iff.1 hb
  obtain ⟨l, hl, hb⟩ := Option.bind_eq_some_iff.1 hb
  obtain ⟨_, -, hb⟩ := Option.bind_eq_some_iff.1 hb
  obtain ⟨_, -, hb⟩ := Option.bind_eq_some_iff.1 hb
  injection hb with hb
  rw [← hb]
  dsimp only
  rw [mapM_length hl, sortIndices_length]

theorem build_sizes (hT : IsText T) (hsa : IsSA T sa) (hn : T.length < W64) (s : Nat) :
    ∃ I k, build T sa s = some I ∧ SubSizes I.stored T.length (nrun T sa) s k := by
  obtain ⟨k, T', hk, h⟩ := commons_ok hT hsa hn s
  obtain ⟨I, hb, ok, st, rfl, hc⟩ := build_of hk h
  obtain ⟨h1, h2⟩ := st.sizes ok.lt
  have := ok.sizes h1 h2 (by rw [build_links hk hb, h.sub, List.length_map]) (commons_few hk h)
  rw [hc.len, hc.nrun_eq hT hsa] at this
  exact ⟨I, _, hb, this⟩

theorem buildSlim_sizes (hT : IsText T) (hsa : IsSA T sa) (hn : T.length < W64) (s : Nat) :
    ∃ I k, buildSlim T sa s = some I ∧ SubSizes I.stored T.length (nrun T sa) s k := by
  obtain ⟨k, T', hk, h⟩ := commons_ok hT hsa hn s
  obtain ⟨I, hb, ok, st, rfl, hc⟩ := buildSlim_of hk h
  obtain ⟨h1, h2⟩ := st.sizes ok.lt ok.nodup (psiOrd_perm hc.text hc.isSA (RCSAPsi.sy_lt hc))
  have := ok.sizes h1 h2 (by rw [buildSlim_links hk hb, h.sub, List.length_map]) (commons_few hk h)
  rw [hc.len, hc.nrun_eq hT hsa] at this
  exact ⟨I, _, hb, this⟩

theorem commonsPsi_few {s : Nat} {k : PsiCommons} (hT : IsText T) (hsa : IsSA T sa) (hk : commonsPsi T sa s = some k) :
    (s + 1) * k.sub.length ≤ 2 * (T.length - 1) + (s + 1) * 4 ∧ k.csa.markToSample.length = k.sub.length := by
  obtain ⟨b, T', hb, ok⟩ := base_build hT hsa
  have hc := ok.compact
  have hh := RCSAPsi.constructPsiRuns_eq ok (pos := hd T' sa) (fun q hq => ⟨hd_lt hq, bwt_hd hq⟩) (fun q => pv T' sa (hd T' sa q))
  have hperm := psiOrd_perm hc.text hc.isSA (RCSAPsi.sy_lt hc)
  unfold commonsPsi at hk
  simp only [hb, Option.bind_eq_bind, Option.bind_some, ok.first, ok.firstTextPos, headPos, hh] at hk
  obtain ⟨p, -, hk⟩ := Option.bind_eq_some_iff.1 hk
  obtain ⟨tails, -, hk⟩ := Option.bind_eq_some_iff.1 hk
  obtain ⟨links, -, hk⟩ := Option.bind_eq_some_iff.1 hk
  obtain ⟨idx, hidx, hk⟩ := Option.bind_eq_some_iff.1 hk
  obtain ⟨_, -, hk⟩ := Option.bind_eq_some_iff.1 hk
  obtain ⟨sub, hsub, hk⟩ := Option.bind_eq_some_iff.1 hk
  obtain ⟨_, -, hk⟩ := Option.bind_eq_some_iff.1 hk
  obtain ⟨_, -, hk⟩ := Option.bind_eq_some_iff.1 hk
  obtain ⟨_, -, hk⟩ := Option.bind_eq_some_iff.1 hk
  obtain ⟨_, -, hk⟩ := Option.bind_eq_some_iff.1 hk
  injection hk with hk
  subst hk
  dsimp only
  refine ⟨?_, sortIndices_length _⟩
  rw [mapM_length hsub, ← hc.len]
  have hp : ((psiOrd T' sa b.alphabet.sigma).map (fun q => pv T' sa (hd T' sa q))).Perm (headPos T' sa) := hperm.map _
  refine subsampleIdx_count_desc (M := T'.length - 1) (hp.nodup_iff.2 (headPos_nodup hc.isSA)) (fun v hv => ?_) hidx
  have := headPos_lt hc.text.pos v (hp.mem_iff.1 hv)
  omega

theorem commonsPsi_sizes (hT : IsText T) (hsa : IsSA T sa) (hn : T.length < W64) (s : Nat) :
    ∃ I k, commonsPsi T sa s = some I ∧ SubSizes I.csa.stored T.length (nrun T sa) s k := by
  obtain ⟨k, T', K, hk, ok, st, rfl, hc, hs, -⟩ := commonsPsi_ok hT hsa hn s
  obtain ⟨h1, h2⟩ := st.sizes ok.lt ok.nodup (psiOrd_perm hc.text hc.isSA (RCSAPsi.sy_lt hc))
  obtain ⟨f1, f2⟩ := commonsPsi_few hT hsa hk
  rw [hs, List.length_map, ← hc.len] at f1
  have := ok.sizes h1 h2 (by rw [f2, hs, List.length_map]) f1
  rw [hc.len, hc.nrun_eq hT hsa] at this
  exact ⟨k, _, hk, this⟩

theorem buildPsi_sizes (hT : IsText T) (hsa : IsSA T sa) (hn : T.length < W64) (s : Nat) :
    ∃ I k, buildPsi T sa s = some I ∧ SubSizes I.stored T.length (nrun T sa) s k := by
  obtain ⟨I, k, hk, h⟩ := commonsPsi_sizes hT hsa hn s
  exact ⟨I.csa, k, by unfold buildPsi; rw [hk]; rfl, h⟩

end SrCSA

namespace SrCSAValid

theorem OK.valid_sizes {I : SrCSAValid} {V : List (Nat × Nat)} {n r s k : Nat} (ok : I.OK T sa K V) (hz : SubSizes I.csa.stored n r s k) :
    SubSizes I.stored n r s k ∧ ValidSizes I.stored (I.validMarks.count false) := by
  have hVn : (V.map (·.1)).Nodup := by
    rw [List.Nodup, List.pairwise_map]; exact ok.sorted.imp (fun h => by omega)
  have hVl : ∀ v ∈ V.map (·.1), v < K.length := by
    intro v hv
    obtain ⟨q, hq, rfl⟩ := List.mem_map.1 hv
    obtain ⟨x, hx, -⟩ := ok.entry q hq
    have := (List.getElem?_eq_some_iff.1 hx).1
    rwa [(sortBy_perm _ _).length_eq, List.length_map] at this
  have hK : I.stored.samples = K.length := by
    have h1 := hz.samples
    have h2 := hz.marks
    change I.csa.samples.length = _
    change I.csa.samples.length = _ at h1
    change I.csa.marks.count true = _ at h2
    rw [h1, ← h2, ok.csa.marks, count_true_mem ok.csa.sub_nodup, List.length_map]
    intro v hv
    obtain ⟨q, hq, rfl⟩ := List.mem_map.1 hv
    exact mkOf_lt ok.csa.nav.text ok.csa.nav.isSA (ok.csa.lt q hq)
  have hcnt := count_false_mem hVn hVl
  rw [← ok.marks, List.length_map] at hcnt
  have har : I.stored.areas = V.length := by show I.validAreas.length = _; rw [ok.areas, List.length_map]
  refine ⟨⟨hz.samples, hz.marks, hz.links, hz.sampled, hz.few, hz.runs, hz.all⟩, ?_, ?_, ?_⟩
  · rw [hK]; show I.validMarks.length = _; rw [ok.marks, List.length_map, List.length_range]
  · rw [har, hcnt]
  · rw [har, hK, ← hcnt]
    refine Nat.le_trans List.count_le_length ?_
    rw [ok.marks, List.length_map, List.length_range]

theorem build_sizes (hT : IsText T) (hsa : IsSA T sa) (hn : T.length < W64) (s : Nat) :
    ∃ I k, build T sa s = some I ∧ SubSizes I.stored T.length (nrun T sa) s k ∧ ValidSizes I.stored (I.validMarks.count false) := by
  obtain ⟨I, T', K, V, hb, ok, -⟩ := build_ok hT hsa hn s
  obtain ⟨J, k, hJ, hz⟩ := SrCSA.build_sizes hT hsa hn s
  have hIJ : I.csa = J := by
    unfold build at hb
    obtain ⟨J', hJ', hb⟩ := Option.bind_eq_some_iff.1 hb
    rw [hJ, Option.some_inj] at hJ'
    obtain ⟨_, -, hb⟩ := Option.bind_eq_some_iff.1 hb
    obtain ⟨_, -, hb⟩ := Option.bind_eq_some_iff.1 hb
    obtain ⟨⟨_, _⟩, -, hb⟩ := Option.bind_eq_some_iff.1 hb
    injection hb with hb
    rw [← hb, hJ']
  rw [← hIJ] at hz
  exact ⟨I, k, hb, ok.valid_sizes hz⟩

theorem buildSlim_sizes (hT : IsText T) (hsa : IsSA T sa) (hn : T.length < W64) (s : Nat) :
    ∃ I k, buildSlim T sa s = some I ∧ SubSizes I.stored T.length (nrun T sa) s k ∧ ValidSizes I.stored (I.validMarks.count false) := by
  obtain ⟨I, T', K, V, hb, ok, -⟩ := buildSlim_ok hT hsa hn s
  obtain ⟨J, k, hJ, hz⟩ := SrCSA.buildSlim_sizes hT hsa hn s
  have hIJ : I.csa = J := by
    unfold buildSlim at hb
    obtain ⟨J', hJ', hb⟩ := Option.bind_eq_some_iff.1 hb
    rw [hJ, Option.some_inj] at hJ'
    obtain ⟨_, -, hb⟩ := Option.bind_eq_some_iff.1 hb
    obtain ⟨_, -, hb⟩ := Option.bind_eq_some_iff.1 hb
    obtain ⟨⟨_, _⟩, -, hb⟩ := Option.bind_eq_some_iff.1 hb
    injection hb with hb
    rw [← hb, hJ']
  rw [← hIJ] at hz
  exact ⟨I, k, hb, ok.valid_sizes hz⟩

theorem buildPsi_sizes (hT : IsText T) (hsa : IsSA T sa) (hn : T.length < W64) (s : Nat) :
    ∃ I k, buildPsi T sa s = some I ∧ SubSizes I.stored T.length (nrun T sa) s k ∧ ValidSizes I.stored (I.validMarks.count false) := by
  obtain ⟨I, T', K, V, hb, ok, -⟩ := buildPsi_ok hT hsa hn s
  obtain ⟨J, k, hJ, hz⟩ := SrCSA.commonsPsi_sizes hT hsa hn s
  have hIJ : I.csa = J.csa := by
    unfold buildPsi at hb
    rw [hJ] at hb
    simp only [Option.bind_eq_bind, Option.bind_some] at hb
    obtain ⟨⟨_, _⟩, -, hb⟩ := Option.bind_eq_some_iff.1 hb
    injection hb with hb
    rw [← hb]
  rw [← hIJ] at hz
  exact ⟨I, k, hb, ok.valid_sizes hz⟩

end SrCSAValid

theorem RIndex.build_sizes (hT : IsText T) (hsa : IsSA T sa) : ∃ I, RIndex.build T sa = some I ∧ AllSizes I.stored (nrun T sa) := by
  obtain ⟨I, T', hb, ok, hc⟩ := RIndex.build_ok hT hsa
  have hr := hc.nrun_eq hT hsa
  refine ⟨I, hb, ?_, ?_, ?_, rfl⟩
  · show I.samples.length = _; rw [ok.samples, tailPos_length, hr]
  · show I.marks.count true = _; rw [ok.marks, count_true_mem (headPos_nodup hc.isSA) (headPos_lt hc.text.pos), headPos_length, hr]
  · show I.markToSample.length = _; rw [ok.links, List.length_map, sortIndices_length, headPos_length, hr]

theorem RCSA.OK.sizes {I : RCSA} {ord : List Nat} {lnk : Nat → Nat} (ok : I.OK T sa ord lnk) : AllSizes I.stored (nrun T sa) := by
  have hl : ord.length = nrun T sa := by rw [ok.perm.length_eq, List.length_range]
  refine ⟨?_, ?_, ?_, rfl⟩
  · show I.samples.length = _; rw [ok.samples, List.length_map, hl]
  · show I.marks.count true = _
    rw [ok.marks, count_true_mem ok.nodup, List.length_map, hl]
    intro v hv
    obtain ⟨q, -, rfl⟩ := List.mem_map.1 hv
    exact pv_lt ok.nav.text.pos
  · show I.markToSample.length = _; rw [ok.links, List.length_map, sortIndices_length, List.length_map, hl]

theorem RCSABwt.build_sizes (hT : IsText T) (hsa : IsSA T sa) (hn : T.length < W64) :
    ∃ I, RCSABwt.build T sa = some I ∧ AllSizes I.stored (nrun T sa) := by
  obtain ⟨I, T', hb, ok, hc⟩ := RCSABwt.build_ok hT hsa hn
  exact ⟨I, hb, hc.nrun_eq hT hsa ▸ ok.sizes⟩

theorem RCSAPsi.build_sizes (hT : IsText T) (hsa : IsSA T sa) (hn : T.length < W64) :
    ∃ I, RCSAPsi.build T sa = some I ∧ AllSizes I.stored (nrun T sa) := by
  obtain ⟨I, T', hb, hc, ok⟩ := RCSAPsi.build_ok hT hsa hn
  exact ⟨I, hb, hc.nrun_eq hT hsa ▸ ok.sizes⟩

end
end Sri
