import Verif.Proofs.RIndex
/-! # What every index with a backward search shares: exact answers, absent characters, empty pattern -/
namespace Sri
set_option autoImplicit false

/-- everything that is claimed about the answers of an index; `rev` tells the order of the reports -/
def Exact (count : List Nat → Option (Nat × Nat)) (locate : List Nat → Option (List Nat)) (T sa : List Nat) (order : List Nat → List Nat) :
    Prop :=
  ∀ P, IsPattern P T → ∃ a b, count P = some (a, b) ∧ IsInterval P T sa a b ∧ (saSlice sa a b).Perm (occurrences P T) ∧
    locate P = some (order (saSlice sa a b))

section
variable {count : List Nat → Option (Nat × Nat)} {locate : List Nat → Option (List Nat)} {T sa : List Nat} {order : List Nat → List Nat}

theorem Exact.countExact (h : Exact count locate T sa order) : CountExact count T := fun P hP => by
  obtain ⟨a, b, e1, e2, e3, -⟩ := h P hP
  exact ⟨a, b, e1, e2.1, by rw [← e3.length_eq, saSlice_length e2.2.1]⟩

theorem Exact.countInterval (h : Exact count locate T sa order) : CountInterval count T sa := fun P hP => by
  obtain ⟨a, b, e1, e2, -, -⟩ := h P hP
  exact ⟨a, b, e1, e2⟩

theorem Exact.locateExact (h : Exact count locate T sa order) (ho : ∀ l, (order l).Perm l) : LocateExact locate T := fun P hP => by
  obtain ⟨a, b, -, -, e3, e4⟩ := h P hP
  exact ⟨_, e4, (ho _).trans e3⟩

theorem Exact.locateLength (h : Exact count locate T sa order) (ho : ∀ l, (order l).Perm l) : LocateLength count locate T := fun P hP => by
  obtain ⟨a, b, e1, e2, -, e4⟩ := h P hP
  exact ⟨a, b, _, e1, e4, by rw [(ho _).length_eq, saSlice_length e2.2.1]⟩

theorem Exact.down (h : Exact count locate T sa List.reverse) : LocateDown count locate T sa := fun P hP => by
  obtain ⟨a, b, e1, -, -, e4⟩ := h P hP
  exact ⟨a, b, e1, e4⟩

theorem Exact.up (h : Exact count locate T sa id) : LocateUp count locate T sa := fun P hP => by
  obtain ⟨a, b, e1, -, -, e4⟩ := h P hP
  exact ⟨a, b, e1, e4⟩

end

section
variable {T sa T' : List Nat} {ρ ν δ : Type} {F : Functors ρ ν δ} {a : Alphabet}

/-- an index reporting downwards -/
theorem exactDown (hc : Compact T sa a T') (hg : F.getSymbol = a.char2comp) (hF : BackSearch F T' sa (PatSym T'))
    {TH : List Nat → Nat → ρ → δ → Prop} (hTH : Toehold F T' sa (PatSym T') TH)
    (hout : ∀ Q r d, IsRange Q T' sa (F.bounds r).1 (F.bounds r).2 → Q ≠ [] → (∀ c ∈ Q, c ≠ 0) →
      (F.bounds r).1 < (F.bounds r).2 → TH Q 0 r d →
      F.computeAll r d = some (valuesDown sa (F.bounds r).1 (F.bounds r).2)) :
    Exact F.count F.locate T sa List.reverse := by
  intro P hP
  obtain ⟨x, y, e1, e2, e3, e4⟩ := exact_of hc hg hF hTH (out := valuesDown sa) hout hP
  refine ⟨x, y, e1, e2, e3, ?_⟩
  have hy : y ≤ T'.length := by have := e2.2.1; rwa [hc.isSA.length] at this
  rw [valuesDown_eq hc.isSA hy] at e4
  rw [e4]
  by_cases h : x < y
  · rw [if_pos h]
  · rw [if_neg h, saSlice_nil h]; rfl

/-- an index reporting upwards -/
theorem exactUp (hc : Compact T sa a T') (hg : F.getSymbol = a.char2comp) (hF : BackSearch F T' sa (PatSym T'))
    {TH : List Nat → Nat → ρ → δ → Prop} (hTH : Toehold F T' sa (PatSym T') TH)
    (hout : ∀ Q r d, IsRange Q T' sa (F.bounds r).1 (F.bounds r).2 → Q ≠ [] → (∀ c ∈ Q, c ≠ 0) →
      (F.bounds r).1 < (F.bounds r).2 → TH Q 0 r d →
      F.computeAll r d = some (valuesUp sa (F.bounds r).1 (F.bounds r).2)) :
    Exact F.count F.locate T sa id := by
  intro P hP
  obtain ⟨x, y, e1, e2, e3, e4⟩ := exact_of hc hg hF hTH (out := valuesUp sa) hout hP
  refine ⟨x, y, e1, e2, e3, ?_⟩
  have hy : y ≤ T'.length := by have := e2.2.1; rwa [hc.isSA.length] at this
  rw [← saSlice_eq hc.isSA hy] at e4
  rw [e4]
  by_cases h : x < y
  · rw [if_pos h]; rfl
  · rw [if_neg h, saSlice_nil h]; rfl

theorem absentEmpty (hc : Compact T sa a T') (hg : F.getSymbol = a.char2comp) (hF : BackSearch F T' sa (· ∈ T')) :
    AbsentEmpty F.count T := by
  intro X Q x hx hQ hstart
  have hsym : F.getSymbol x = 0 := by rw [hg]; exact hc.absent x hx
  exact (count_absent hc.text hc.isSA hF hsym Q
    (fun c h => by rw [hg]; exact ⟨hc.mem c (hQ c h).1, hc.pos c (hQ c h).1 (hQ c h).2⟩) X).2
    (by rw [hg, hc.occ Q (fun c h => (hQ c h).1)]; exact hstart)

theorem occurrences_absent {x : Nat} (hx : x ∉ T) : occurrences [x] T = [] := by
  unfold occurrences
  rw [List.filter_eq_nil_iff]
  intro p _ hp
  have hp := of_decide_eq_true hp
  rw [OccursAt, List.length_singleton] at hp
  apply hx
  have : x ∈ (T.drop p).take 1 := by rw [hp.2]; simp
  exact List.mem_of_mem_drop (List.mem_of_mem_take this)

/-- an absent character is read as the terminator: the search ends in the range `[0,1)` after one step -/
theorem absentAnswered (hc : Compact T sa a T') (hg : F.getSymbol = a.char2comp) (hF : BackSearch F T' sa (· ∈ T'))
    (hout : ∀ k nr, F.lf (F.fullRange F.bwtSize) 0 = some nr → F.bounds (F.toRange nr) = (0, 1) →
      ∃ d, F.update (F.fullRange F.bwtSize) nr 0 0 (F.initial k) = some d ∧ F.computeAll (F.toRange nr) d = some [T'.length - 1]) :
    AbsentAnswered F.count F.locate T := by
  intro x hx
  have hn := hc.text.pos
  have h0 : (0 : Nat) ∈ T' := by obtain ⟨u, rfl, _⟩ := hc.text; simp
  have hsym : F.getSymbol x = 0 := by rw [hg]; exact hc.absent x hx
  refine ⟨(count_absent hc.text hc.isSA hF hsym [] (by simp) []).1 (by simp [OccursAt]), ?_, occurrences_absent hx⟩
  obtain ⟨nr, f1, f2⟩ := hF.lf (F.fullRange F.bwtSize) 0 h0 (by rw [hF.full]; exact hn) (by rw [hF.full])
  have hz := (zero_step hc.text hc.isSA (isRange_nil hc.isSA)).1 (by simp [OccursAt])
  rw [hF.full] at f2
  rw [hz.1, hz.2] at f2
  have hne : F.isEmpty (F.fullRange F.bwtSize) = false := by rw [hF.empty, hF.full]; simp [hn]
  have hne2 : F.isEmpty (F.toRange nr) = false := by rw [hF.empty, f2]; simp
  obtain ⟨d, g1, g2⟩ := hout 0 nr f1 f2
  unfold Functors.locate
  simp only [List.reverse_singleton, List.length_singleton, Nat.sub_self, Functors.locateLoop, hne, hsym, f1,
    Option.bind_eq_bind, Option.bind_some, List.length_nil, g1, hne2, Bool.false_eq_true, if_false, g2]
  rw [hc.len]

/-- the search of Locate ends with data that identify the toehold -/
theorem search_toehold (hc : Compact T sa a T') (hg : F.getSymbol = a.char2comp) (hF : BackSearch F T' sa (PatSym T'))
    {TH : List Nat → Nat → ρ → δ → Prop} (hTH : Toehold F T' sa (PatSym T') TH) {P : List Nat} (hP : IsPattern P T) (k : Nat) :
    ∃ r d, F.locateLoop P.reverse (F.fullRange F.bwtSize) (F.initial k) = some (r, d) ∧
      IsInterval P T sa (F.bounds r).1 (F.bounds r).2 ∧
      IsRange (P.map a.char2comp) T' sa (F.bounds r).1 (F.bounds r).2 ∧
      ((F.bounds r).1 < (F.bounds r).2 → TH (P.map a.char2comp) 0 r d ∧ P.length < T'.length) := by
  obtain ⟨c, L, hcl⟩ : ∃ c L, P.reverse = c :: L := by
    cases h : P.reverse with
    | nil => simp at h; exact absurd h hP.1
    | cons c L => exact ⟨c, L, rfl⟩
  have hsym : ∀ d ∈ c :: L, PatSym T' (F.getSymbol d) := by
    intro d hd
    have hdP : d ∈ P := by rw [← List.mem_reverse, hcl]; exact hd
    rw [hg]
    exact ⟨hc.mem d (hP.2 d hdP).1, hc.pos d (hP.2 d hdP).1 (hP.2 d hdP).2⟩
  have hn := hc.text.pos
  have h0 : IsRange [] T' sa 0 T'.length := isRange_nil hc.isSA
  obtain ⟨nr, e1, e2⟩ := hF.lf (F.fullRange F.bwtSize) _ (hsym c (by simp)) (by rw [hF.full]; exact hn) (by rw [hF.full])
  rw [hF.full] at e2
  obtain ⟨d1, f1, f2⟩ := hTH.first (F.getSymbol c) L.length k nr (hsym c (by simp)) e1
  have hstep := backward_step hc.text hc.isSA (hsym c (by simp)).2 h0
  obtain ⟨r', d', g1, g2, g3⟩ := locateLoop_spec hc.text hc.isSA hF hTH (fun c h => h.2) L
    (fun d hd => hsym d (by simp [hd])) [F.getSymbol c] (by simp) (F.toRange nr) d1
    (by rw [e2]; exact hstep) f2
  have hpat : (L.map F.getSymbol).reverse ++ [F.getSymbol c] = P.map a.char2comp := by
    have := congrArg List.reverse hcl
    rw [List.reverse_reverse, List.reverse_cons] at this
    rw [this, hg]; simp [List.map_reverse]
  rw [hpat] at g2 g3
  refine ⟨r', d', ?_, interval_of_range hc (fun c h => (hP.2 c h).1) g2, g2, fun hlt => ⟨g3 hlt, ?_⟩⟩
  · have hne : F.isEmpty (F.fullRange F.bwtSize) = false := by rw [hF.empty, hF.full]; simp [hn]
    rw [hcl, Functors.locateLoop, hne]
    simp only [Bool.false_eq_true, if_false, e1, Option.bind_eq_bind, Option.bind_some, f1]
    exact g1
  · have := pattern_len hc.text (Q := P.map a.char2comp) (by
      intro x hx
      obtain ⟨y, hy, rfl⟩ := List.mem_map.1 hx
      exact hc.pos y (hP.2 y hy).1 (hP.2 y hy).2) g2 hlt
    simpa using this

end

namespace RIndex
variable {I : RIndex} {T sa T' : List Nat} {β : Type}

/-- absent characters in an index that navigates as RIndex does -/
theorem NavOK.absentAnswered (h : I.NavOK T' sa) (hc : Compact T sa I.alphabet T') {F : Functors Range RangeLF (StepData β)}
    (hF : Navigates F I) (hg : F.getSymbol = I.alphabet.char2comp) {den : β → Nat → Prop}
    {create : Range → Nat → RangeLF → Nat → Option (StepData β)} (hcr : Creates I T' sa den create)
    (hup : F.update = updateToehold lfTrivial create) (hinit : ∀ k, (F.initial k).step = 0)
    (hout : ∀ r d, r.start = 0 → r.stop = 1 → THof den T' sa [0] 0 r d → F.computeAll r d = some [T'.length - 1]) :
    AbsentAnswered F.count F.locate T := by
  refine Sri.absentAnswered hc hg (h.backSearchOf hF) ?_
  intro k nr hlf hb
  have hn := h.text.pos
  have h0 : (0 : Nat) ∈ T' := by obtain ⟨u, rfl, _⟩ := hc.text; simp
  rw [hF.lf, hF.fullRange, hF.bwtSize] at hlf
  dsimp only at hlf
  rw [h.n] at hlf
  rw [hF.toRange, hF.bounds] at hb
  have b1 : nr.start.value = 0 := congrArg Prod.fst hb
  have b2 : nr.stop.value = 1 := congrArg Prod.snd hb
  obtain ⟨d, e1, e2⟩ := h.create hcr (i := 0) h0 hn (Nat.le_refl _) hlf (Or.inr rfl) []
  refine ⟨d, ?_, ?_⟩
  · rw [hup, hF.fullRange, hF.bwtSize]
    simp only [updateToehold, hinit, decide_true, Bool.true_or, if_true, h.n]
    exact e1
  · rw [hF.toRange]
    exact hout _ _ b1 b2 (e2 (by omega))

/-- a toehold read off the recorded step -/
theorem NavOK.toehold_search (h : I.NavOK T' sa) (hc : Compact T sa I.alphabet T') {F : Functors Range RangeLF (StepData β)}
    (hF : Navigates F I) (hg : F.getSymbol = I.alphabet.char2comp) {den : β → Nat → Prop}
    {create : Range → Nat → RangeLF → Nat → Option (StepData β)} (hcr : Creates I T' sa den create)
    (hup : F.update = updateToehold lfTrivial create) (hinit : ∀ k, (F.initial k).step = 0)
    {toehold : StepData β → Option Nat}
    (ht : ∀ Q r d, THof den T' sa Q 0 r d → d.step < T'.length → toehold d = some (saAt sa (r.stop - 1)))
    {P : List Nat} (hP : IsPattern P T) (k : Nat) :
    ∃ r d, F.locateLoop P.reverse (F.fullRange F.bwtSize) (F.initial k) = some (r, d) ∧ IsInterval P T sa r.start r.stop ∧
      (r.start < r.stop → toehold d = sa[r.stop - 1]?) := by
  obtain ⟨r, d, e1, e2, e3, e4⟩ := search_toehold hc hg ((h.backSearchOf hF).mono (fun _ h => h.1)) (h.toeholdOf hcr hF hup hinit) hP k
  rw [hF.bounds] at e2 e3 e4
  refine ⟨r, d, e1, e2, fun hlt => ?_⟩
  obtain ⟨h1, h2⟩ := e4 hlt
  have hst : d.step < T'.length := by obtain ⟨q, -, -, -, h4, -⟩ := h1; rw [List.length_map] at h4; omega
  rw [ht _ _ _ h1 hst]
  have hb2 : r.stop ≤ T'.length := e3.2.1
  have hl : r.stop - 1 < sa.length := by rw [h.isSA.length]; omega
  rw [List.getElem?_eq_getElem hl]
  simp [saAt, List.getD_eq_getElem?_getD, List.getElem?_eq_getElem hl]

end RIndex
end Sri
