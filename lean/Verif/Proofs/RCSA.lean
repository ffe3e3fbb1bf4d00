import Verif.Proofs.PsiOrder
import Mathlib.Data.List.Rotate
/-! # RCSAWithBWTRun and RCSAWithPsiRun: phi, toehold, construction -/
namespace Sri
set_option autoImplicit false

namespace RCSA
variable {I : RCSA} {T sa ord : List Nat} {lnk : Nat → Nat}

/-- what the members of a built r-CSA hold: `ord` is the order of the runs, `lnk` the link of a mark -/
structure OK (I : RCSA) (T sa ord : List Nat) (lnk : Nat → Nat) : Prop where
  nav : I.toPsiNav.OK T sa
  perm : ord.Perm (List.range (nrun T sa))
  samples : I.samples = ord.map (fun q => pv T sa (hd T sa q))
  marks : I.marks = (List.range T.length).map (fun i => decide (i ∈ ord.map (fun q => pv T sa (tl T sa q))))
  links : I.markToSample = (sortIndices (ord.map (fun q => pv T sa (tl T sa q)))).map lnk
  link : ∀ k q, ord[k]? = some q → ∃ q', ord[lnk k]? = some q' ∧ hd T sa q' = psiAt T sa ((lfAt T sa (tl T sa q) + 1) % T.length)

theorem OK.mem_ord (h : I.OK T sa ord lnk) {q : Nat} : q ∈ ord ↔ q < nrun T sa := by rw [h.perm.mem_iff, List.mem_range]

theorem OK.nodup (h : I.OK T sa ord lnk) : (ord.map (fun q => pv T sa (tl T sa q))).Nodup := by
  refine List.Nodup.map_on ?_ (h.perm.nodup_iff.2 List.nodup_range)
  intro a ha b hb he
  exact tl_inj (h.mem_ord.1 ha) (h.mem_ord.1 hb) (pv_inj h.nav.isSA (tl_lt (h.mem_ord.1 ha)) (tl_lt (h.mem_ord.1 hb)) he)

theorem OK.mem_marks (h : I.OK T sa ord lnk) {p : Nat} : p ∈ ord.map (fun q => pv T sa (tl T sa q)) ↔ TailMark T sa p := by
  rw [List.mem_map]
  constructor
  · rintro ⟨q, h1, rfl⟩; exact ⟨_, tailAt_tl (h.mem_ord.1 h1), rfl⟩
  · rintro ⟨t, h1, rfl⟩
    obtain ⟨q, h2, rfl⟩ := tailAt_iff.1 h1
    exact ⟨q, h.mem_ord.2 h2, rfl⟩

/-- **phi**: from the value at a position to the value at the next position, circularly -/
theorem OK.phi_eq (h : I.OK T sa ord lnk) {i : Nat} (hi : i < T.length) :
    I.phi (saAt sa i) = some (saAt sa ((i+1) % T.length), true) := by
  have hT := h.nav.text
  have hsa := h.nav.isSA
  have hn := hT.pos
  have hlt := saAt_lt hsa hi
  have hne : ord.map (fun q => pv T sa (tl T sa q)) ≠ [] := by
    intro h0
    have := h.mem_marks.2 (last_tailMark hT hsa)
    rw [h0] at this; simp at this
  obtain ⟨o, k, hk, e1, e2, -, e4⟩ := succ_marks h.nodup (n := T.length) (fun v hv => (h.mem_marks.1 hv).lt hn) hne
    (v := saAt sa i) (by omega)
  have hk' : k < ord.length := by rw [List.length_map] at hk; exact hk
  have hval : (ord.map (fun q => pv T sa (tl T sa q)))[k] = pv T sa (tl T sa ord[k]) := by rw [List.getElem_map]
  rw [hval] at e1 e4
  have hM : (fun x => x ∈ ord.map (fun q => pv T sa (tl T sa q))) = TailMark T sa := by funext x; exact propext h.mem_marks
  rw [hM] at e4
  obtain ⟨d, t, f1, f2, f3, f4, f5⟩ := phi_forw_circ hT hsa hi e4
  have hq := h.mem_ord.1 (List.getElem_mem hk')
  have ht : t = tl T sa ord[k] := pv_inj hsa f3.1 (tl_lt hq) f4
  obtain ⟨q', g1, g2⟩ := h.link k ord[k] (List.getElem?_eq_getElem hk')
  rw [ht, ← g2] at f5
  unfold phi phiForward
  have hs : I.successor (saAt sa i) = some (o, pv T sa (tl T sa ord[k])) := by
    unfold successor; rw [h.marks, h.nav.n]; exact e1
  simp only [hs, Option.bind_eq_bind, Option.bind_some, csub, show saAt sa i ≤ pv T sa (tl T sa ord[k]) by omega, if_true]
  rw [show pv T sa (tl T sa ord[k]) - saAt sa i = d by omega]
  have hg : getSampleForPhi (fun i => (I.markToSample[i]?).map (fun k => (k, true))) (fun k => I.samples[k]?) validatorDefault o d
      = some (pv T sa (hd T sa q'), true) := by
    unfold getSampleForPhi validatorDefault
    simp only [h.links, List.getElem?_map, e2, Option.map_some, Option.bind_eq_bind, Option.bind_some, h.samples, g1]
    rfl
  rw [hg]
  simp only [Option.bind_some, h.nav.n, show d ≤ pv T sa (hd T sa q') + T.length by omega, if_true, cmod,
    show T.length ≠ 0 by omega, if_false, f5]
  rfl

theorem OK.phiLoop_eq (h : I.OK T sa ord lnk) (len : Nat) {a : Nat} (ha : a < T.length) :
    phiLoop I.phi len (saAt sa a) = some ((List.range' (a + 1) len).map (fun j => saAt sa (j % T.length))) := by
  induction len generalizing a with
  | zero => rfl
  | succ len ih =>
    rw [phiLoop, h.phi_eq ha]
    simp only [Option.bind_eq_bind, Option.bind_some]
    rw [ih (Nat.mod_lt _ (by omega))]
    rw [Option.bind_some, List.range'_succ, List.map_cons]
    congr 2
    apply List.ext_getElem?
    intro j
    rw [List.getElem?_map, List.getElem?_map]
    by_cases hj : j < len
    · rw [List.getElem?_range' hj, List.getElem?_range' hj]
      simp only [Option.map_some, Nat.one_mul]
      rw [show (a+1) % T.length + 1 + j = (a+1) % T.length + (1 + j) by omega, Nat.mod_add_mod,
        show a + 1 + (1 + j) = a + 1 + 1 + j by omega]
    · rw [List.getElem?_eq_none (by simp; omega), List.getElem?_eq_none (by simp; omega)]

/-- everything from the toehold on, circularly -/
theorem OK.computeAll_circ (h : I.OK T sa ord lnk) {δ : Type} {toehold : δ → Option Nat} {a b k : Nat} {d : δ} (hab : a < b)
    (hk : k < T.length) (ht : toehold d = some (saAt sa k)) :
    computeAllValues I.phiForRange toehold shrink ⟨a, b⟩ d = some ((List.range' k (b - a)).map (fun j => saAt sa (j % T.length))) := by
  simp only [computeAllValues, ht, Option.bind_eq_bind, Option.bind_some, shrink, phiForRange, h.phiLoop_eq _ hk]
  rw [show b - a = (b - (a + 1)) + 1 by omega, List.range'_succ, List.map_cons, Nat.mod_eq_of_lt hk]
  rfl

theorem map_mod {n a len : Nat} (h : a + len ≤ n) (f : Nat → Nat) :
    (List.range' a len).map (fun j => f (j % n)) = (List.range' a len).map f := by
  refine List.map_congr_left ?_
  intro j hj
  rw [List.mem_range'_1] at hj
  rw [Nat.mod_eq_of_lt (by omega)]

theorem OK.computeAll_up (h : I.OK T sa ord lnk) {δ : Type} {toehold : δ → Option Nat} {r : Range} {d : δ} (hab : r.start < r.stop)
    (hb : r.stop ≤ T.length) (ht : toehold d = some (saAt sa r.start)) :
    computeAllValues I.phiForRange toehold shrink r d = some (valuesUp sa r.start r.stop) := by
  rw [show r = ⟨r.start, r.stop⟩ from rfl, h.computeAll_circ hab (by omega) ht, map_mod (by omega), valuesUp]

variable {β : Type} {create : Range → Nat → RangeRunLF → Nat → Option (StepData β)} {init : StepData β} {getV : β → Option Nat}
  {den : β → Nat → Prop} {T' : List Nat}

theorem navigates (I : RCSA) (create : Range → Nat → RangeRunLF → Nat → Option (StepData β)) (init : StepData β) (getV : β → Option Nat) :
    PsiNav.Navigates (I.functorsWith create init getV) I.toPsiNav := ⟨rfl, rfl, rfl, rfl, rfl, rfl⟩

/-- how a variant names runs and values their heads -/
structure Variant (T sa : List Nat) (den : β → Nat → Prop) (create : Range → Nat → RangeRunLF → Nat → Option (StepData β))
    (init : StepData β) (getV : β → Option Nat) : Prop where
  creates : PsiNav.Creates T sa den create
  init : init.step = 0
  value : ∀ d q, q < nrun T sa → den d q → ∃ v, getV d = some v ∧ v % T.length = saAt sa (hd T sa q) % T.length

theorem OK.toehold_eq (h : I.OK T sa ord lnk) (hv : Variant T sa den create init getV) {Q : List Nat} {r : Range} {d : StepData β}
    (hth : PsiNav.THof den T sa Q 0 r d) (hst : d.step < T.length) : computeToehold getV I.psi.n d = some (saAt sa r.start) := by
  rw [h.nav.size]; exact h.nav.toehold_of hv.value hth hst

theorem OK.exact (h : I.OK T' sa ord lnk) (hc : Compact T sa I.alphabet T') (hv : Variant T' sa den create init getV) :
    Exact (I.functorsWith create init getV).count (I.functorsWith create init getV).locate T sa id := by
  refine exactUp hc (F := I.functorsWith create init getV) rfl ((h.nav.backSearchOf (navigates I create init getV)).mono (fun _ h => h.1))
    (h.nav.toeholdOf hv.creates (navigates I create init getV) rfl (fun _ => hv.init)) ?_
  intro Q r d h1 h2 h3 h4 h5
  exact h.computeAll_up h4 h1.2.1 (h.toehold_eq hv h5 (h5.step_lt (Nat.le_of_lt (pattern_len h.nav.text h3 h1 h4))))

theorem OK.absent (h : I.OK T' sa ord lnk) (hc : Compact T sa I.alphabet T') (hv : Variant T' sa den create init getV) :
    AbsentAnswered (I.functorsWith create init getV).count (I.functorsWith create init getV).locate T := by
  refine h.nav.absentAnswered hc (navigates I create init getV) rfl hv.creates rfl (fun _ => hv.init) ?_
  intro r d h1 h2 hth
  have hn := hc.text.pos
  have := h.computeAll_up (r := r) (by omega) (by omega) (h.toehold_eq hv hth (hth.step_lt (by simp; omega)))
  refine this.trans ?_
  rw [h1, h2, valuesUp]
  simp [sa_zero h.nav.text h.nav.isSA]

theorem OK.absentEmpty (h : I.OK T' sa ord lnk) (hc : Compact T sa I.alphabet T') :
    AbsentEmpty (I.functorsWith create init getV).count T :=
  Sri.absentEmpty hc rfl (h.nav.backSearchOf (navigates I create init getV))

theorem OK.countEmpty (h : I.OK T' sa ord lnk) (hc : Compact T sa I.alphabet T') :
    (I.functorsWith create init getV).count [] = some (0, T.length) := by
  simp [Functors.count, Functors.countLoop, functorsWith, h.nav.n, hc.len]

theorem rotate_eq (hsa : IsSA T sa) {k : Nat} :
    (List.range' k T.length).map (fun j => saAt sa (j % T.length)) = sa.rotate k := by
  have hl := hsa.length
  apply List.ext_getElem?
  intro j
  by_cases hj : j < T.length
  · rw [List.getElem?_map, List.getElem?_range' hj, List.getElem?_rotate (by omega), hl]
    have hm : (j + k) % T.length < sa.length := by rw [hl]; exact Nat.mod_lt _ (by omega)
    rw [Option.map_some, List.getElem?_eq_getElem hm, Nat.one_mul, Nat.add_comm k j, saAt, List.getD_eq_getElem?_getD,
      List.getElem?_eq_getElem hm, Option.getD_some]
  · rw [List.getElem?_eq_none (by simp; omega), List.getElem?_eq_none (by simp; omega)]

/-- Locate of the empty pattern: the suffix array, rotated to the position that the initial data name -/
theorem OK.locateEmpty (h : I.OK T' sa ord lnk) (hc : Compact T sa I.alphabet T') (hv : Variant T' sa den create init getV)
    {q : Nat} (hq : q < nrun T' sa) (hden : den init.run q) :
    (I.functorsWith create init getV).locate [] = some (sa.rotate (lfAt T' sa (hd T' sa q))) := by
  have hn := hc.text.pos
  have hlt := lfAt_lt hc.isSA (hd_lt hq)
  have hth : PsiNav.THof den T' sa [0] 0 ⟨lfAt T' sa (hd T' sa q), T'.length⟩ init :=
    ⟨q, hden, hq, Nat.zero_le _, by rw [hv.init]; simp, by rw [hv.init]; simp [lfIt_succ, lfIt_zero]⟩
  have ht := h.toehold_eq hv hth (by rw [hv.init]; exact hn)
  have hall := h.computeAll_circ (a := 0) (b := T'.length) (d := init) hn hlt ht
  rw [Nat.sub_zero, rotate_eq hc.isSA] at hall
  have h0 : ¬ T'.length = 0 := by omega
  simp only [Functors.locate, Functors.locateLoop, functorsWith, h.nav.n, List.reverse_nil, Option.bind_eq_bind, Option.bind_some, hall,
    hn, decide_true, Bool.not_true, Bool.false_eq_true, if_false]

end RCSA

/-! ## RCSAWithBWTRun -/
namespace RCSABwt
variable {T sa T' : List Nat}

theorem lowerBound_sorted {xs : List Nat} (h : xs.Pairwise (· < ·)) {k x : Nat} (hx : xs[k]? = some x) : lowerBound xs x = k := by
  induction xs generalizing k with
  | nil => simp at hx
  | cons y ys ih =>
    rw [List.pairwise_cons] at h
    unfold lowerBound
    cases k with
    | zero =>
      simp only [List.getElem?_cons_zero, Option.some_inj] at hx
      subst hx
      rw [List.takeWhile_cons, if_neg (by simp)]; rfl
    | succ k =>
      rw [List.getElem?_cons_succ] at hx
      have hlt := h.1 x (List.mem_of_getElem? hx)
      rw [List.takeWhile_cons, if_pos (by simpa using hlt), List.length_cons]
      have := ih h.2 hx
      unfold lowerBound at this
      omega

theorem hds_sorted : ((List.range (nrun T sa)).map (hd T sa)).Pairwise (· < ·) := by
  rw [List.pairwise_map]
  refine List.pairwise_lt_range.imp_of_mem ?_
  intro a b _ hb hab
  exact hd_strict hab (List.mem_range.1 hb)

theorem tls_sorted : ((List.range (nrun T sa)).map (tl T sa)).Pairwise (· < ·) := by
  rw [List.pairwise_map]
  refine List.pairwise_lt_range.imp_of_mem ?_
  intro a b _ hb hab
  exact tl_strict hab (List.mem_range.1 hb)

/-- the run that starts where the character after the tail of run `k` (in LF order) comes from -/
def lnk (T sa : List Nat) (k : Nat) : Nat :=
  lowerBound ((List.range (nrun T sa)).map (hd T sa)) (psiAt T sa ((lfAt T sa (tl T sa k) + 1) % T.length))

theorem lnk_spec (hT : IsText T) (hsa : IsSA T sa) {k : Nat} (hk : k < nrun T sa) :
    lnk T sa k < nrun T sa ∧ hd T sa (lnk T sa k) = psiAt T sa ((lfAt T sa (tl T sa k) + 1) % T.length) := by
  obtain ⟨k', hk', he⟩ := headAt_iff.1 (head_after hT hsa (tailAt_tl (T := T) (sa := sa) hk))
  have : lnk T sa k = k' := by
    rw [lnk, ← he]
    exact lowerBound_sorted hds_sorted (by rw [List.getElem?_map, List.getElem?_range hk']; rfl)
  rw [this]; exact ⟨hk', he⟩

theorem links_eq {b : BaseItems} {p : PsiItems} (hb : BaseOK T sa T' b) (hp : PsiItemsOK T' sa b.alphabet.sigma p) :
    linksPhiForwardBWT b p = some (sortIndices (tailPos T' sa), (sortIndices (tailPos T' sa)).map (lnk T' sa)) := by
  have hc := hb.compact
  have hn := hc.text.pos
  obtain ⟨hC, hnav⟩ := PsiNav.ok_of_items hb hp
  unfold linksPhiForwardBWT constructMarkToSampleLinks
  rw [hC, Option.bind_eq_bind, Option.bind_some, hb.lastTextPos]
  have hm : (sortIndices (tailPos T' sa)).mapM (fun m => (b.runs.last[m]?).bind (fun pos =>
      markToSampleLink (basicLF b.bwtRle b.alphabet.C) (psiApply p.core.select b.alphabet.C) (lowerBound b.runs.first) T'.length pos))
      = some ((sortIndices (tailPos T' sa)).map (lnk T' sa)) := by
    refine PartOK.mapM_some ?_
    intro m hm
    have hmr : m < nrun T' sa := by
      rw [(sortIndices_perm _).mem_iff, List.mem_range, tailPos_length] at hm; exact hm
    rw [hb.last, List.getElem?_map, List.getElem?_range hmr, Option.map_some, Option.bind_some]
    unfold markToSampleLink
    have hpsi := hnav.psiFn ((lfAt T' sa (tl T' sa m) + 1) % T'.length) (Nat.mod_lt _ hn)
    unfold PsiNav.psiAt at hpsi
    simp only [basicLF_eq hb (tl_lt hmr), Option.bind_eq_bind, Option.bind_some, cmod, show T'.length ≠ 0 by omega, if_false, hpsi,
      hb.first]
    rfl
  simp only [Option.bind_eq_bind, hm, Option.bind_some]
  rfl

theorem build_ok (hT : IsText T) (hsa : IsSA T sa) (hn : T.length < W64) :
    ∃ I T', RCSABwt.build T sa = some I ∧ I.OK T' sa (List.range (nrun T' sa)) (lnk T' sa) ∧ Compact T sa I.alphabet T' := by
  obtain ⟨b, T', hb, ok⟩ := base_build hT hsa
  obtain ⟨p, hp, pk⟩ := psiItems_build ok hn
  obtain ⟨hC, hnav⟩ := PsiNav.ok_of_items ok pk
  have hc := ok.compact
  have hn' : 0 < T'.length := hc.text.pos
  refine ⟨{ alphabet := b.alphabet, psi := p.core, n := T'.length, samples := headPos T' sa, marks := (List.range T'.length).map (fun i => decide (i ∈ tailPos T' sa)), markToSample := (sortIndices (tailPos T' sa)).map (lnk T' sa) }, T', ?_, ⟨hnav, List.Perm.refl _, rfl, rfl, rfl, ?_⟩, hc⟩
  · unfold build
    simp only [hb, hp, links_eq ok pk, Option.bind_eq_bind, Option.bind_some, ok.firstTextPos, ok.lastTextPos, ok.n,
      bitVector_eq (tailPos_lt hn'), hC]
    rfl
  · intro k q hkq
    obtain ⟨hk, rfl⟩ := List.getElem?_eq_some_iff.1 hkq
    rw [List.length_range] at hk
    rw [List.getElem_range]
    obtain ⟨h1, h2⟩ := lnk_spec hc.text hc.isSA hk
    exact ⟨_, List.getElem?_range h1, h2⟩

/-- run data name the run by the position of its head -/
def den (T sa : List Nat) (pos q : Nat) : Prop := pos = hd T sa q

theorem runsBefore_hd {q : Nat} (hq : q < nrun T sa) : runsBefore (bwtSeq T sa) (hd T sa q) = q := by
  have := runsBefore_rstart (R := runsOf T sa) runsOf_pos (rle_alternating _) (show q ≤ (runsOf T sa).length from Nat.le_of_lt hq)
  rw [expand_runsOf] at this
  exact this

theorem variant {I : RCSA} (h : I.OK T sa (List.range (nrun T sa)) (lnk T sa)) :
    RCSA.Variant T sa (den T sa) createData { step := 0, run := 0 } (saValueOfRun I) where
  creates := fun _ _ nr _ => ⟨nr.start.rstart, rfl, fun q _ h1 _ _ _ _ => h1⟩
  init := rfl
  value := by
    rintro d q hq rfl
    refine ⟨pv T sa (hd T sa q) + 1, ?_, PsiNav.pv_succ_mod h.nav.isSA (hd_lt hq)⟩
    unfold saValueOfRun
    rw [h.nav.core.rankRun h.nav.dense (by rw [bwtSeq_length]; exact Nat.le_of_lt (hd_lt hq)), runsBefore_hd hq]
    simp only [Option.bind_eq_bind, Option.bind_some, h.samples, List.getElem?_map, List.getElem?_range hq, Option.map_some]
    rfl

end RCSABwt

/-! ## RCSAWithPsiRun -/
namespace RCSAPsi
variable {T sa T' : List Nat}

/-- distributing the runs over the buckets of their symbols -/
theorem bucketLoop_eq {access : Nat → Option Nat} {s : Nat} {pos val sym : Nat → Nat} (L : List Nat)
    (hacc : ∀ q ∈ L, access (pos q) = some (sym q)) (hs : ∀ q ∈ L, sym q < s) (f : Nat → List Nat) :
    bucketLoop access (L.map (fun q => (pos q, val q))) ((List.range s).map f) =
      some ((List.range s).map (fun c => f c ++ (L.filter (fun q => decide (sym q = c))).map val)) := by
  induction L generalizing f with
  | nil => simp [bucketLoop]
  | cons q L ih =>
    have h1 := hs q (by simp)
    rw [List.map_cons, bucketLoop, hacc q (by simp)]
    simp only [Option.bind_eq_bind, Option.bind_some, List.getElem?_map, List.getElem?_range h1, Option.map_some]
    have hset : ((List.range s).map f).set (sym q) (f (sym q) ++ [val q]) =
        (List.range s).map (fun c => f c ++ if sym q = c then [val q] else []) := by
      apply List.ext_getElem?
      intro c
      rw [List.getElem?_set]
      by_cases hcs : c < s
      · simp only [List.getElem?_map, List.getElem?_range hcs, Option.map_some, List.length_map, List.length_range, h1, if_true]
        by_cases hq : sym q = c
        · subst hq; simp
        · simp [hq]
      · rw [if_neg (by omega), List.getElem?_eq_none (by simp; omega), List.getElem?_eq_none (by simp; omega)]
    rw [hset, ih (fun x hx => hacc x (by simp [hx])) (fun x hx => hs x (by simp [hx]))]
    congr 1
    refine List.map_congr_left ?_
    intro c _
    rw [List.filter_cons]
    by_cases hq : sym q = c
    · simp [hq]
    · simp [hq]

theorem constructPsiRuns_eq {b : BaseItems} (hb : BaseOK T sa T' b) {pos : Nat → Nat}
    (hpos : ∀ q, q < nrun T' sa → pos q < T'.length ∧ bwtAt T' sa (pos q) = sy T' sa q) (val : Nat → Nat) :
    constructPsiRuns b ((List.range (nrun T' sa)).map pos) ((List.range (nrun T' sa)).map val) =
      some ((psiOrd T' sa b.alphabet.sigma).map val) := by
  unfold constructPsiRuns
  have hz : ((List.range (nrun T' sa)).map pos).zip ((List.range (nrun T' sa)).map val) =
      (List.range (nrun T' sa)).map (fun q => (pos q, val q)) := by
    rw [List.zip_map']
  have hrep : List.replicate b.alphabet.sigma ([] : List Nat) = (List.range b.alphabet.sigma).map (fun _ => []) := by
    rw [List.map_const', List.length_range]
  rw [hz, hrep, bucketLoop_eq (List.range (nrun T' sa)) (sym := sy T' sa)]
  · simp only [Option.bind_eq_bind, Option.bind_some, List.nil_append]
    rw [← List.flatMap_def, psiOrd, List.map_flatMap]; rfl
  · intro q hq
    obtain ⟨h1, h2⟩ := hpos q (List.mem_range.1 hq)
    rw [hb.rle.access h1, h2]
  · intro q hq
    obtain ⟨h1, h2⟩ := hpos q (List.mem_range.1 hq)
    rw [← h2]
    apply hb.compact.lt
    rw [← (bwtSeq_perm hb.compact.text hb.compact.isSA).mem_iff]; exact List.mem_of_getElem? (bwtSeq_get h1)

theorem sy_lt {a : Alphabet} (hc : Compact T sa a T') : ∀ q, q < nrun T' sa → sy T' sa q < a.sigma := by
  intro q hq
  rw [← bwt_hd hq]
  apply hc.lt
  rw [← (bwtSeq_perm hc.text hc.isSA).mem_iff]; exact List.mem_of_getElem? (bwtSeq_get (hd_lt hq))

theorem build_ok (hT : IsText T) (hsa : IsSA T sa) (hn : T.length < W64) :
    ∃ I T', RCSAPsi.build T sa = some I ∧ Compact T sa I.alphabet T' ∧
      I.OK T' sa (psiOrd T' sa I.alphabet.sigma) (fun k => (k + 1) % (psiOrd T' sa I.alphabet.sigma).length) := by
  obtain ⟨b, T', hb, ok⟩ := base_build hT hsa
  obtain ⟨p, hp, pk⟩ := psiItems_build ok hn
  obtain ⟨hC, hnav⟩ := PsiNav.ok_of_items ok pk
  have hc := ok.compact
  have hn' : 0 < T'.length := hc.text.pos
  have hperm := psiOrd_perm hc.text hc.isSA (sy_lt hc)
  have hh := constructPsiRuns_eq ok (pos := hd T' sa) (fun q hq => ⟨hd_lt hq, bwt_hd hq⟩) (fun q => pv T' sa (hd T' sa q))
  have ht := constructPsiRuns_eq ok (pos := tl T' sa) (fun q hq => ⟨tl_lt hq, bwt_tl hq⟩) (fun q => pv T' sa (tl T' sa q))
  set ord := psiOrd T' sa b.alphabet.sigma with hord
  have hlen : 0 < ord.length := by rw [hperm.length_eq, List.length_range]; exact nrun_pos hn'
  have hlinks : linksPhiForwardPsi (ord.map (fun q => pv T' sa (tl T' sa q))) =
      some (sortIndices (ord.map (fun q => pv T' sa (tl T' sa q))),
        (sortIndices (ord.map (fun q => pv T' sa (tl T' sa q)))).map (fun k => (k + 1) % ord.length)) := by
    unfold linksPhiForwardPsi constructMarkToSampleLinks
    dsimp only
    rw [PartOK.mapM_some (g := fun k => (k + 1) % ord.length)]
    · rfl
    · intro m _
      rw [cmod, List.length_map, if_neg (by omega)]
  refine ⟨{ alphabet := b.alphabet, psi := p.core, n := T'.length, samples := ord.map (fun q => pv T' sa (hd T' sa q)), marks := (List.range T'.length).map (fun i => decide (i ∈ ord.map (fun q => pv T' sa (tl T' sa q)))), markToSample := (sortIndices (ord.map (fun q => pv T' sa (tl T' sa q)))).map (fun k => (k + 1) % ord.length) }, T', ?_, hc, hnav, hperm, rfl, rfl, rfl, ?_⟩
  · unfold build
    simp only [hb, hp, headPos, tailPos, hh, ht, ok.first, ok.firstTextPos, ok.last, ok.lastTextPos, Option.bind_eq_bind, Option.bind_some]
    rw [ok.n, bitVector_eq (n := T'.length) (by
      intro v hv; obtain ⟨q, -, rfl⟩ := List.mem_map.1 hv; exact pv_lt hn'), hlinks, hC]
    rfl
  · intro k q hkq
    obtain ⟨k', h1, h2, h3⟩ := psiOrd_next hc.text hc.isSA (sy_lt hc) hkq
    exact ⟨k', h1, h3⟩

/-- run data name the run by its symbol and its index among the runs of the symbol -/
def den (T sa : List Nat) (d : PsiRunData) (q : Nat) : Prop := d.c = sy T sa q ∧ d.partialRank = symIdx T sa q

theorem variant {I : RCSA} {lnk : Nat → Nat} (h : I.OK T sa (psiOrd T sa I.alphabet.sigma) lnk) :
    RCSA.Variant T sa (den T sa) createData { step := 0, run := { c := 0, partialRank := 0 } } (saValueOfRun I) where
  creates := fun _ c nr _ => ⟨{ c := c, partialRank := nr.start.rank }, rfl, fun q _ _ _ h1 h2 _ => ⟨h1.symm, h2⟩⟩
  init := rfl
  value := by
    rintro d q hq ⟨h1, h2⟩
    refine ⟨pv T sa (hd T sa q) + 1, ?_, PsiNav.pv_succ_mod h.nav.isSA (hd_lt hq)⟩
    have hs : sy T sa q < I.alphabet.sigma := (mem_psiOrd.1 (h.mem_ord.2 hq)).2
    unfold saValueOfRun
    rw [h1, h2, h.nav.core.rankCharRun (Nat.le_of_lt hs)]
    simp only [Option.bind_eq_bind, Option.bind_some, h.samples, List.getElem?_map, psiOrd_get hq hs, Option.map_some]
    rfl

/-- the initial data name the run of the terminator -/
theorem den_init (hT : IsText T) (hsa : IsSA T sa) :
    ∃ q, q < nrun T sa ∧ den T sa { c := 0, partialRank := 0 } q ∧ lfAt T sa (hd T sa q) = 0 := by
  have hn := hT.pos
  obtain ⟨q, hq, he⟩ := headAt_iff.1 (head_psi_zero hT hsa)
  have h0 : lfAt T sa (hd T sa q) = 0 := by rw [he, lf_psi hsa hn]
  have hs0 : sy T sa q = 0 := by
    rw [← bwt_hd hq, bwtAt_eq hsa (hd_lt hq), h0, sa_zero hT hsa]
    exact (hT.tx_zero_iff (by omega)).2 rfl
  refine ⟨q, hq, ⟨hs0.symm, ?_⟩, h0⟩
  rw [symIdx_eq hq, hs0]
  symm
  rw [List.length_eq_zero_iff, List.filter_eq_nil_iff]
  intro k hk h
  have hk' : k < nrun T sa := by have := List.mem_range.1 hk; omega
  have h := of_decide_eq_true h
  have := (bwtAt_zero_iff hT hsa (hd_lt hk')).1 (by rw [bwt_hd hk', h])
  have h' := (bwtAt_zero_iff hT hsa (hd_lt hq)).1 (by rw [bwt_hd hq, hs0])
  have := hd_inj hk' hq (saAt_inj hsa (hd_lt hk') (hd_lt hq) (by omega))
  have := List.mem_range.1 hk
  omega

end RCSAPsi
end Sri
