import Verif.Proofs.SplitForw
/-! # SrCSA, SrCSASlim and SrCSAWithPsiRun: phi over the kept marks, splitting, toehold, answers -/
namespace Sri
set_option autoImplicit false

namespace SrCSA
variable {I : SrCSA} {T sa K : List Nat}

/-- what the members of a built index hold; `K` lists the kept runs -/
structure OK (I : SrCSA) (T sa K : List Nat) : Prop where
  nav : I.toPsiNav.OK T sa
  sym : ∀ i, i < T.length → computeCForSAIndex I.alphabet.C i = some (tx T (saAt sa i))
  nodup : K.Nodup
  lt : ∀ q ∈ K, q < nrun T sa
  marks : I.marks = (List.range T.length).map (fun i => decide (i ∈ K.map (mkOf T sa)))
  link : ∀ o k q : Nat, (sortIndices (K.map (mkOf T sa)))[o]? = some k → K[k]? = some q →
    ∃ j, I.markToSample[o]? = some j ∧ I.samples[j]? = some (pv T sa (hd T sa q))
  sampling : HeadSampling T sa I.s (keptHd T sa K)
  zero : ∃ q ∈ K, saAt sa (hd T sa q) = 0
  first : ∀ p, TailMark T sa p → ∃ x, x ∈ K.map (mkOf T sa) ∧ x ≤ p
  last : ∀ p, TailMark T sa p → ∃ x, x ∈ K.map (mkOf T sa) ∧ p ≤ x

theorem OK.sub_nodup (h : I.OK T sa K) : (K.map (mkOf T sa)).Nodup := by
  refine List.Nodup.map_on ?_ h.nodup
  intro a ha b hb he
  exact mkOf_inj h.nav.isSA (h.lt a ha) (h.lt b hb) he

theorem OK.sub_mark (h : I.OK T sa K) {x : Nat} (hx : x ∈ K.map (mkOf T sa)) : TailMark T sa x := by
  obtain ⟨q, hq, rfl⟩ := List.mem_map.1 hx
  exact mkOf_tailMark h.nav.text h.nav.isSA (h.lt q hq)

theorem OK.kept_zero (h : I.OK T sa K) {z : Nat} (hz : z < T.length) (h0 : saAt sa z = 0) : keptHd T sa K z := by
  obtain ⟨q, hq, hv⟩ := h.zero
  exact ⟨q, hq, saAt_inj h.nav.isSA (hd_lt (h.lt q hq)) hz (by rw [hv, h0])⟩

theorem sorted_sub {vals : List Nat} (hd : vals.Nodup) {o k : Nat} (hk : k < vals.length)
    (ho : o = vals.countP (fun a => decide (a < vals[k]))) : (sortBy (fun x => x) vals)[o]? = some vals[k] := by
  have hs : (sortBy (fun x => x) vals).Pairwise (fun a b => a < b) := sortBy_strict (by simpa using hd)
  have := strict_index (key := fun x => x) hs ((sortBy_perm _ _).mem_iff.2 (List.getElem_mem hk))
  rw [(sortBy_perm _ _).countP_eq, ← ho] at this
  exact this

/-- the successor step of phi over the kept marks -/
theorem OK.succ (h : I.OK T sa K) {i : Nat} (hi : i < T.length) :
    ∃ o p j y, I.successor (saAt sa i) = some (o, p) ∧ I.markToSample[o]? = some j ∧ I.samples[j]? = some y ∧
      (sortBy (fun x => x) (K.map (mkOf T sa)))[o]? = some p ∧ o < K.length ∧
      CircSucc (· ∈ K.map (mkOf T sa)) (saAt sa i) p ∧ saAt sa i ≤ p ∧ p < T.length ∧
      (CircSucc (TailMark T sa) (saAt sa i) p → i + 1 < T.length → (y + T.length - (p - saAt sa i)) % T.length = saAt sa (i+1)) ∧
      (i + 1 < T.length → (∀ e, e < I.s → ¬ keptHd T sa K (psiIt T sa e (i+1))) → CircSucc (TailMark T sa) (saAt sa i) p) := by
  have hT := h.nav.text
  have hsa := h.nav.isSA
  have hn := hT.pos
  have hlt := saAt_lt hsa hi
  have hsl : ∀ v ∈ K.map (mkOf T sa), v < T.length := fun v hv => (h.sub_mark hv).lt hn
  have hlm := last_tailMark hT hsa
  have hne : K.map (mkOf T sa) ≠ [] := by
    intro h0
    obtain ⟨x, hx, -⟩ := h.last _ hlm
    rw [h0] at hx; simp at hx
  obtain ⟨o, k, hk, e1, e2, e3, e4⟩ := succ_marks h.sub_nodup hsl hne (v := saAt sa i) (by omega)
  have hkK : k < K.length := by simpa using hk
  have hq := h.lt _ (List.getElem_mem hkK)
  obtain ⟨j, l1, l2⟩ := h.link o k K[k] e2 (List.getElem?_eq_getElem hkK)
  have hval : (K.map (mkOf T sa))[k] = mkOf T sa K[k] := by rw [List.getElem_map]
  obtain ⟨x, hx1, hx2⟩ := h.last _ hlm
  obtain ⟨c1, -⟩ := e4.2.1 ⟨x, hx1, by omega⟩
  have hpl := hsl _ (List.getElem_mem hk)
  refine ⟨o, (K.map (mkOf T sa))[k], j, pv T sa (hd T sa K[k]), ?_, l1, l2, sorted_sub h.sub_nodup hk e3, ?_, e4, c1, hpl, ?_, ?_⟩
  · unfold RCSA.successor; rw [h.marks, h.nav.n]; exact e1
  · have h2 := (List.getElem?_eq_some_iff.1 e2).1
    rw [sortIndices_length] at h2; simpa using h2
  · intro hcs hi1
    obtain ⟨d, f1, f2, f3, f4, f5, f6, f7, f8⟩ := phi_forw hT hsa hi1 hcs
    have := after_mkOf hsa f3.1 hq (by rw [f4, hval])
    rw [f7] at this
    rw [this, show (K.map (mkOf T sa))[k] - saAt sa i = d by omega]
    exact f8
  · intro hi1 hno
    obtain ⟨o', k', hk', -, -, -, g4⟩ := succ_marks (tailPos_nodup hsa) (tailPos_lt hn) (tailPos_ne (sa := sa) hn)
      (v := saAt sa i) (by omega)
    have hM : (fun x => x ∈ tailPos T sa) = TailMark T sa := by funext x; exact propext mem_tailPos
    rw [hM] at g4
    obtain ⟨d, f1, f2, f3, f4, f5, f6, f7, f8⟩ := phi_forw hT hsa hi1 g4
    obtain ⟨q, hqK, hq1⟩ := sub_phi_forw hT hsa h.sampling hi1 f5 (by rw [← f7]; exact head_after hT hsa f3) hno
    have hmem : (tailPos T sa)[k'] ∈ K.map (mkOf T sa) :=
      List.mem_map.2 ⟨q, hqK, by rw [← f4]; exact mkOf_after hsa f3.1 (by rw [hq1, f7])⟩
    have := (g4.sub (fun _ hx => h.sub_mark hx) hmem).unique e4
    rw [← this]; exact g4

/-- phi of the plain index: right whenever no kept head is met within `s` steps -/
theorem OK.phiOK (h : I.OK T sa K) : PhiOKF T sa I.s (keptHd T sa K) I.phi := by
  intro i hi
  have hn := h.nav.text.pos
  obtain ⟨o, p, j, y, e1, e2, e3, -, -, -, e5, e6, e7, e8⟩ := h.succ hi
  refine ⟨(y + T.length - (p - saAt sa i)) % T.length, false, ?_, fun h1 h2 => e7 (e8 h1 h2) h1⟩
  unfold phi phiForward
  simp only [e1, Option.bind_eq_bind, Option.bind_some, csub, e5, if_true]
  unfold getSampleForPhi validatorDefault
  simp only [e2, Option.map_some, Option.bind_eq_bind, Option.bind_some, e3, h.nav.n, Option.pure_def,
    show p - saAt sa i ≤ y + T.length by omega, if_true, cmod, show T.length ≠ 0 by omega, if_false]

/-! ## Splitting -/

theorem OK.cum_le (h : I.OK T sa K) {c : Nat} (hc : I.alphabet.sigma ≤ c) : cumC T c = T.length := by
  rw [cumC, List.countP_eq_length]
  intro x hx
  have := h.nav.lt x hx
  simp; omega

theorem cum_mono {c d : Nat} (h : c ≤ d) : cumC T c ≤ cumC T d := by
  unfold cumC
  refine List.countP_mono_left ?_
  intro x _ hx
  simp only [decide_eq_true_eq] at hx ⊢
  omega

theorem OK.splitRunLoop (h : I.OK T sa K) {last : Nat} (hl : last ≤ T.length) :
    ∀ (fuel c : Nat), c < I.alphabet.sigma → I.alphabet.sigma < c + fuel →
      ∃ l, I.splitRunLoop last fuel c (cumC T (c+1)) = some l ∧
        Images T.length (psiAt T sa) (PieceOf T sa) (min last (cumC T (c+1))) last l := by
  intro fuel
  induction fuel with
  | zero => intro c h1 h2; omega
  | succ fuel ih =>
    intro c h1 h2
    rw [SrCSA.splitRunLoop]
    by_cases hlt : cumC T (c+1) < last
    · rw [if_pos hlt]
      have hc1 : c + 1 < I.alphabet.sigma := by
        by_contra hc
        have := h.cum_le (c := c+1) (by omega)
        omega
      have hocc : c + 1 ∈ T := (bwtSeq_perm h.nav.text h.nav.isSA).mem_iff.1 (h.nav.dense.2 _ hc1)
      have hcnt := List.count_pos_iff.2 hocc
      have hsucc := cumC_succ T (c+1)
      obtain ⟨r, e1, e2⟩ := forwardRuns_images h.nav (c := c+1) (f := 1) (l := min last (cumC T (c+1+1)) - cumC T (c+1) + 1) hc1
        (Nat.le_refl _) (by omega) (by omega)
      obtain ⟨l, f1, f2⟩ := ih (c+1) hc1 (by omega)
      obtain ⟨w, w1, w2⟩ : ∃ w, csub (min last (cumC T (c+1+1))) (cumC T (c+1)) = some w ∧ w = min last (cumC T (c+1+1)) - cumC T (c+1) :=
        ⟨_, by rw [csub, if_pos (by omega)], rfl⟩
      rw [← w2] at e1 e2
      refine ⟨r.map createRun ++ l, ?_, ?_⟩
      · simp only [h.nav.C (c+1+1) (by omega), Option.bind_eq_bind, Option.bind_some, w1, e1, f1]
        rfl
      · rw [show min last (cumC T (c+1)) = cumC T (c+1) by omega]
        rw [show cumC T (c+1) + (1 - 1) = cumC T (c+1) by omega,
          show cumC T (c+1) + (w + 1 - 1) = min last (cumC T (c+1+1)) by omega] at e2
        exact e2.append f2 (by omega)
    · rw [if_neg hlt]
      refine ⟨[], rfl, ?_⟩
      change min last (cumC T (c+1)) = last
      omega

/-- psi of a block of positions, split in runs -/
theorem OK.splitRun (h : I.OK T sa K) {run : FRun} (h1 : run.start < run.stop) (h2 : run.stop ≤ T.length) :
    ∃ l, I.splitRun run = some l ∧ Images T.length (psiAt T sa) (PieceOf T sa) run.start run.stop l := by
  have hsa := h.nav.isSA
  have hi : run.start < T.length := by omega
  set c := tx T (saAt sa run.start) with hc
  have hcs : c < I.alphabet.sigma := h.nav.lt _ (by rw [hc, tx_lt (saAt_lt hsa hi)]; exact List.getElem_mem _)
  obtain ⟨b1, b2⟩ := (block_iff hsa hi).1 hc.symm
  obtain ⟨r, e1, e2⟩ := forwardRuns_images h.nav (c := c) (f := run.start - cumC T c + 1) (l := min run.stop (cumC T (c+1)) - cumC T c + 1) hcs
    (by omega) (by omega) (by omega)
  have hfuel : I.alphabet.sigma < I.alphabet.C.length := (List.getElem?_eq_some_iff.1 (h.nav.C _ (Nat.le_refl _))).1
  obtain ⟨l, f1, f2⟩ := h.splitRunLoop h2 (I.alphabet.C.length + 1) c hcs (by omega)
  obtain ⟨a, a1, a2⟩ : ∃ a, csub run.start (cumC T c) = some a ∧ a = run.start - cumC T c := ⟨_, by rw [csub, if_pos b1], rfl⟩
  obtain ⟨w, w1, w2⟩ : ∃ w, csub (min run.stop (cumC T (c+1))) (cumC T c) = some w ∧ w = min run.stop (cumC T (c+1)) - cumC T c :=
    ⟨_, by rw [csub, if_pos (by omega)], rfl⟩
  rw [← w2, ← a2] at e1 e2
  refine ⟨r.map createRun ++ l, ?_, ?_⟩
  · unfold SrCSA.splitRun
    simp only [h.sym _ hi, ← hc, h.nav.C c (by omega), h.nav.C (c+1) (by omega), Option.bind_eq_bind, Option.bind_some, a1, w1, e1, f1]
    rfl
  · rw [show cumC T c + (a + 1 - 1) = run.start by omega,
      show cumC T c + (w + 1 - 1) = min run.stop (cumC T (c+1)) by omega] at e2
    exact e2.append f2 (by omega)

/-! ## The variants -/

/-- what the functors of a variant do. `Good` describes the runs it handles, `den d q` says that run data `d` name run `q`, `Strong d`
    that the sample of `d` can be read off. -/
structure OpsOK (O : ForwOps) (T sa K : List Nat) (Good : FRun → Prop) (den : FData → Nat → Prop) (Strong : FData → Prop) : Prop where
  piece : ∀ r, PieceOf T sa r → Good r
  sampled : ∀ r, Good r → r.start < r.stop → r.stop ≤ T.length → keptHd T sa K r.start → O.getSampleRun r = some (some (pv T sa r.start))
  noSample : ∀ r, Good r → r.start < r.stop → r.stop ≤ T.length → ¬ keptHd T sa K r.start → O.getSampleRun r = some none
  inside : ∀ r, Good r → ∀ y, r.start < y → y < r.stop → ¬ keptHd T sa K y
  goodUp : ∀ r, Good r → r.start + 1 < r.stop → Good { r with start := r.start + 1, isRunStart := false }
  range : ∀ a b, a < b → b ≤ T.length → ∃ l, O.splitRange a b = some l ∧ Images T.length id Good a b l
  creates : PsiNav.Creates T sa den O.create
  navigate : ∀ d, d.pos < T.length → ∃ d', O.psiData d = some d' ∧ d'.pos = psiAt T sa d.pos ∧ Strong d'
  data : ∀ d, Strong d → d.pos < T.length → (keptHd T sa K d.pos → O.getSampleData d = some (some (pv T sa d.pos))) ∧
    (¬ keptHd T sa K d.pos → O.getSampleData d = some none)
  den : ∀ d q, q < nrun T sa → den d q → d.pos = hd T sa q ∧ (Strong d ∨ (d.pos = 0 ∧ O.getSampleData d = some none))

variable {O : ForwOps} {Good : FRun → Prop} {den : FData → Nat → Prop} {Strong : FData → Prop} {phi : Nat → Option (Nat × Bool)}

theorem OK.forwOK (h : I.OK T sa K) (ho : OpsOK O T sa K Good den Strong) (hphi : PhiOKF T sa I.s (keptHd T sa K) phi) :
    ForwOK (I.rangePhi O phi) T sa I.s (keptHd T sa K) Good where
  text := h.nav.text
  isSA := h.nav.isSA
  seq := h.nav.n
  rate := rfl
  update := rfl
  empty := rfl
  last := fun _ hz h0 => h.kept_zero hz h0
  sampled := ho.sampled
  noSample := ho.noSample
  inside := ho.inside
  goodUp := ho.goodUp
  split := fun r h1 h2 => by
    obtain ⟨l, e1, e2⟩ := h.splitRun h1 h2
    exact ⟨l, e1, e2.mono ho.piece⟩
  phi := hphi

theorem up_eq (a b : Nat) : up sa a (b - a) = valuesUp sa a b := rfl

/-- the rest of a range after its first value -/
theorem OK.rest (h : I.OK T sa K) (ho : OpsOK O T sa K Good den Strong) {a b : Nat} (ha : 1 ≤ a) (hab : a ≤ b) (hb : b ≤ T.length) :
    I.phiForRange O ⟨a, b⟩ (saAt sa (a-1)) = some (up sa a (b - a)) := by
  unfold phiForRange
  by_cases hlt : a < b
  · obtain ⟨l, e1, e2⟩ := ho.range a b hlt hb
    simp only [hlt, if_true, e1, Option.bind_eq_bind, Option.bind_some]
    exact forwRange_spec (h.forwOK ho h.phiOK) ha hb e2
  · simp only [hlt, if_false]
    rw [show b - a = 0 by omega, up_zero]

/-- the same with validity information -/
theorem OK.restV (h : I.OK T sa K) (ho : OpsOK O T sa K Good den Strong) (hphi : PhiOKF T sa I.s (keptHd T sa K) phi)
    (hv : PhiValidF T sa phi) {V : SrCSAValid} (hV : V.csa = I) {a b : Nat} (ha : 1 ≤ a) (hab : a ≤ b) (hb : b ≤ T.length) :
    V.phiForRange O phi ⟨a, b⟩ (saAt sa (a-1)) = some (up sa a (b - a)) := by
  unfold SrCSAValid.phiForRange
  rw [hV]
  by_cases hlt : a < b
  · obtain ⟨l, e1, e2⟩ := ho.range a b hlt hb
    simp only [hlt, if_true, e1]
    exact forwRangeV_spec (h.forwOK ho hphi) hv ha hab hb e2
  · simp only [hlt, if_false]
    rw [show b - a = 0 by omega, up_zero]

/-! ## Toehold -/

theorem OpsOK.findSample_eq (ho : OpsOK O T sa K Good den Strong) (hsa : IsSA T sa) (fuel : Nat) :
    ∀ d : FData, Strong d → d.pos < T.length → (∃ e, e < fuel ∧ keptHd T sa K (psiIt T sa e d.pos)) →
      ∃ j, j < fuel ∧ findSample O.getSampleData O.psiData fuel d = some (pv T sa (psiIt T sa j d.pos), j) ∧
        ∀ e, keptHd T sa K (psiIt T sa e d.pos) → j ≤ e := by
  induction fuel with
  | zero => rintro d _ _ ⟨e, he, -⟩; omega
  | succ fuel ih =>
    rintro d hs hd ⟨e, he, hk⟩
    obtain ⟨g1, g2⟩ := ho.data d hs hd
    rw [findSample]
    by_cases hkd : keptHd T sa K d.pos
    · refine ⟨0, by omega, ?_, fun e _ => Nat.zero_le e⟩
      simp only [g1 hkd, Option.bind_eq_bind, Option.bind_some, psiIt_zero]; rfl
    · obtain ⟨d', n1, n2, n3⟩ := ho.navigate d hd
      obtain ⟨e', rfl⟩ : ∃ e', e = e' + 1 := by
        cases e with
        | zero => rw [psiIt_zero] at hk; exact absurd hk hkd
        | succ e => exact ⟨e, rfl⟩
      obtain ⟨j, hj, f1, f2⟩ := ih d' n3 (by rw [n2]; exact psiAt_lt hsa hd) ⟨e', by omega, by rw [n2, ← psiIt_succ']; exact hk⟩
      refine ⟨j+1, by omega, ?_, ?_⟩
      · simp only [g2 hkd, Option.bind_eq_bind, Option.bind_some, n1, f1]
        rw [n2, ← psiIt_succ']; rfl
      · intro e he
        cases e with
        | zero => rw [psiIt_zero] at he; exact absurd he hkd
        | succ e =>
          rw [psiIt_succ', ← n2] at he
          have := f2 e he
          omega

theorem OK.meets (h : I.OK T sa K) {x : Nat} (hx : x < T.length) : ∃ e, e < T.length ∧ keptHd T sa K (psiIt T sa e x) := by
  have hlt := saAt_lt h.nav.isSA hx
  by_cases h0 : saAt sa x = 0
  · exact ⟨0, by omega, h.kept_zero hx h0⟩
  · refine ⟨T.length - saAt sa x, by omega, h.kept_zero (psiIt_lt h.nav.isSA _ hx) ?_⟩
    rw [sa_psiIt_mod h.nav.isSA hx, show saAt sa x + (T.length - saAt sa x) = T.length by omega, Nat.mod_self]

theorem findSample_add {β : Type} {g : β → Option (Option Nat)} {nv : β → Option β} :
    ∀ (fuel extra : Nat) (d : β) (r : Nat × Nat), findSample g nv fuel d = some r → findSample g nv (fuel + extra) d = some r := by
  intro fuel
  induction fuel with
  | zero => intro extra d r h; cases h
  | succ fuel ih =>
    intro extra d r h
    rw [show fuel + 1 + extra = (fuel + extra) + 1 by omega]
    rw [findSample] at h ⊢
    cases hg : g d with
    | none => rw [hg] at h; cases h
    | some s =>
      rw [hg] at h
      simp only [Option.bind_eq_bind, Option.bind_some] at h ⊢
      cases s with
      | some x => exact h
      | none =>
        dsimp only at h ⊢
        cases hn : nv d with
        | none => rw [hn] at h; cases h
        | some d' =>
          rw [hn] at h
          simp only [Option.bind_some] at h ⊢
          cases hf : findSample g nv fuel d' with
          | none => rw [hf] at h; cases h
          | some r' => rw [hf] at h; rw [ih extra d' r' hf]; exact h

/-- the search for a sample from the head of the recorded run: one step at most, or no more than to the next kept head -/
theorem OK.findSample_head (h : I.OK T sa K) (ho : OpsOK O T sa K Good den Strong) {d : FData} {q : Nat} (hq : q < nrun T sa)
    (hden : den d q) : d.pos = hd T sa q ∧ ∃ j, j ≤ T.length ∧
      findSample O.getSampleData O.psiData (T.length + 2) d = some (pv T sa (psiIt T sa j d.pos), j) ∧
      (j ≤ 1 ∨ ∀ e, keptHd T sa K (psiIt T sa e d.pos) → j ≤ e) := by
  have hsa := h.nav.isSA
  have hn := h.nav.text.pos
  have hlt := hd_lt (T := T) (sa := sa) hq
  obtain ⟨h1, h2⟩ := ho.den d q hq hden
  refine ⟨h1, ?_⟩
  rcases h2 with hs | ⟨h0, hg⟩
  · obtain ⟨j, hj, e, hm⟩ := ho.findSample_eq hsa T.length d hs (by omega) (h.meets (by omega))
    exact ⟨j, by omega, findSample_add _ 2 _ _ e, Or.inr hm⟩
  · obtain ⟨d', n1, n2, n3⟩ := ho.navigate d (by omega)
    have hz : saAt sa d'.pos = 0 := by
      rw [n2, h0, saAt_psiAt hsa hn, sa_zero h.nav.text hsa, Nat.sub_add_cancel (by omega), Nat.mod_self]
    have hlt' : d'.pos < T.length := by rw [n2]; exact psiAt_lt hsa (by omega)
    have hg' := (ho.data d' n3 hlt').1 (h.kept_zero hlt' hz)
    refine ⟨1, by omega, ?_, Or.inl (Nat.le_refl _)⟩
    rw [findSample]
    simp only [hg, Option.bind_eq_bind, Option.bind_some, n1]
    rw [findSample]
    simp only [hg', Option.bind_eq_bind, Option.bind_some, Option.pure_def]
    rw [n2]; rfl

/-- the value of the head of the recorded run -/
theorem OK.saValueOfRun_eq (h : I.OK T sa K) (ho : OpsOK O T sa K Good den Strong) {d : FData} {q : Nat} (hq : q < nrun T sa)
    (hden : den d q) : I.saValueOfRun O d = some (saAt sa (hd T sa q)) := by
  have hsa := h.nav.isSA
  have hn := h.nav.text.pos
  have hlt := hd_lt (T := T) (sa := sa) hq
  obtain ⟨h1, j, hj, e, -⟩ := h.findSample_head ho hq hden
  unfold saValueOfRun saValueForward
  rw [h.nav.n]
  simp only [e, Option.bind_eq_bind, Option.bind_some, csub, show j ≤ pv T sa (psiIt T sa j d.pos) + 1 + T.length by omega, if_true, cmod,
    show T.length ≠ 0 by omega, if_false]
  rw [sample_value_forw hsa (x := d.pos) (by omega) hj rfl, h1]

variable {g : Range → Nat → Option (List Nat)} {T' : List Nat}

theorem navigates (I : SrCSA) (O : ForwOps) (g : Range → Nat → Option (List Nat)) :
    PsiNav.Navigates (I.functorsWith O g) I.toPsiNav := ⟨rfl, rfl, rfl, rfl, rfl, rfl⟩

theorem OK.toehold_eq (h : I.OK T sa K) (ho : OpsOK O T sa K Good den Strong) {Q : List Nat} {r : Range} {d : StepData FData}
    (hth : PsiNav.THof den T sa Q 0 r d) (hst : d.step < T.length) :
    computeToehold (I.saValueOfRun O) I.n d = some (saAt sa r.start) := by
  rw [h.nav.n]
  exact h.nav.toehold_of (fun _ _ hq hden => ⟨_, h.saValueOfRun_eq ho hq hden, rfl⟩) hth hst

/-- the values of a range, given a functor that reports all but the first -/
theorem OK.computeAll_eq (h : I.OK T sa K) (ho : OpsOK O T sa K Good den Strong)
    (hg : ∀ a b, 1 ≤ a → a ≤ b → b ≤ T.length → g ⟨a, b⟩ (saAt sa (a-1)) = some (up sa a (b - a)))
    {Q : List Nat} {r : Range} {d : StepData FData} (hab : r.start < r.stop) (hb : r.stop ≤ T.length)
    (hth : PsiNav.THof den T sa Q 0 r d) (hst : d.step < T.length) :
    (I.functorsWith O g).computeAll r d = some (valuesUp sa r.start r.stop) := by
  have hrest := hg (r.start + 1) r.stop (by omega) (by omega) hb
  rw [Nat.add_sub_cancel] at hrest
  simp only [functorsWith, computeAllValues, h.toehold_eq ho hth hst, RCSA.shrink, Option.bind_eq_bind, Option.bind_some, hrest]
  rw [valuesUp, show r.stop - r.start = (r.stop - (r.start + 1)) + 1 by omega, List.range'_succ, List.map_cons]
  rfl

theorem OK.exact (h : I.OK T' sa K) (ho : OpsOK O T' sa K Good den Strong) (hc : Compact T sa I.alphabet T')
    (hg : ∀ a b, 1 ≤ a → a ≤ b → b ≤ T'.length → g ⟨a, b⟩ (saAt sa (a-1)) = some (up sa a (b - a))) :
    Exact (I.functorsWith O g).count (I.functorsWith O g).locate T sa id := by
  refine exactUp hc (F := I.functorsWith O g) rfl ((h.nav.backSearchOf (navigates I O g)).mono (fun _ h => h.1))
    (h.nav.toeholdOf ho.creates (navigates I O g) rfl (fun _ => rfl)) ?_
  intro Q r d h1 h2 h3 h4 h5
  exact h.computeAll_eq ho hg h4 h1.2.1 h5 (h5.step_lt (Nat.le_of_lt (pattern_len h.nav.text h3 h1 h4)))

theorem OK.absent (h : I.OK T' sa K) (ho : OpsOK O T' sa K Good den Strong) (hc : Compact T sa I.alphabet T')
    (hg : ∀ a b, 1 ≤ a → a ≤ b → b ≤ T'.length → g ⟨a, b⟩ (saAt sa (a-1)) = some (up sa a (b - a))) :
    AbsentAnswered (I.functorsWith O g).count (I.functorsWith O g).locate T := by
  refine h.nav.absentAnswered hc (navigates I O g) rfl ho.creates rfl (fun _ => rfl) ?_
  intro r d h1 h2 hth
  have hn := hc.text.pos
  have := h.computeAll_eq ho hg (r := r) (by omega) (by omega) hth (hth.step_lt (by simp; omega))
  refine this.trans ?_
  rw [h1, h2, valuesUp]
  simp [sa_zero h.nav.text h.nav.isSA]

theorem OK.absentEmpty (h : I.OK T' sa K) (hc : Compact T sa I.alphabet T') :
    AbsentEmpty (I.functorsWith O g).count T :=
  Sri.absentEmpty hc rfl (h.nav.backSearchOf (navigates I O g))

theorem OK.countEmpty (h : I.OK T' sa K) (hc : Compact T sa I.alphabet T') : (I.functorsWith O g).count [] = some (0, T.length) := by
  simp [Functors.count, Functors.countLoop, functorsWith, h.nav.n, hc.len]

end SrCSA
end Sri
