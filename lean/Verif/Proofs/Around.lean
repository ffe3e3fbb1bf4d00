import Verif.Proofs.PsiNav
import Verif.SpecAround
/-! # Backward search with any symbol of the text, the terminator included: the text as a circle -/
namespace Sri
set_option autoImplicit false

section
variable {T sa : List Nat}

theorem getElem?_tx {p : Nat} (h : p < T.length) : T[p]? = some (tx T p) := by
  rw [List.getElem?_eq_getElem h]; simp [tx, List.getD_eq_getElem?_getD, List.getElem?_eq_getElem h]

theorem around_cons {c p : Nat} {Q : List Nat} (hp : p < T.length) :
    OccursAround (c :: Q) T p ↔ tx T p = c ∧ OccursAround Q T ((p + 1) % T.length) := by
  unfold OccursAround
  constructor
  · intro h
    refine ⟨?_, fun j hj => ?_⟩
    · have := h 0 (by simp)
      rw [Nat.add_zero, Nat.mod_eq_of_lt hp, getElem?_tx hp] at this
      simpa using this.symm
    · have := h (j+1) (by simpa using hj)
      rw [List.getElem?_cons_succ] at this
      rw [this, Nat.mod_add_mod]; congr 2; omega
  · rintro ⟨h1, h2⟩ j hj
    cases j with
    | zero => rw [Nat.add_zero, Nat.mod_eq_of_lt hp, getElem?_tx hp, h1]; rfl
    | succ j =>
      rw [List.getElem?_cons_succ, h2 j (by simpa using hj), Nat.mod_add_mod]; congr 2; omega

theorem around_append {X Q : List Nat} {p : Nat} (h : OccursAround (X ++ Q) T p) : OccursAround Q T ((p + X.length) % T.length) := by
  intro j hj
  have := h (X.length + j) (by rw [List.length_append]; omega)
  rw [List.getElem?_append_right (by omega), Nat.add_sub_cancel_left] at this
  rw [this, Nat.mod_add_mod]; congr 2; omega

/-- `[a,b)` is the set of the suffix-array positions at which `Q` is read around the end of the text -/
def AroundRange (Q T sa : List Nat) (a b : Nat) : Prop :=
  a ≤ b ∧ b ≤ T.length ∧ ∀ i, (i < T.length ∧ OccursAround Q T (saAt sa i)) ↔ a ≤ i ∧ i < b

theorem aroundRange_nil : AroundRange [] T sa 0 T.length := by
  refine ⟨Nat.zero_le _, Nat.le_refl _, fun i => ?_⟩
  constructor
  · intro h; exact ⟨Nat.zero_le _, h.1⟩
  · intro h; exact ⟨h.2, fun j hj => by simp at hj⟩

theorem around_match (hsa : IsSA T sa) {c : Nat} {Q : List Nat} {i : Nat} (hi : i < T.length) :
    OccursAround (c :: Q) T (saAt sa (lfAt T sa i)) ↔ bwtAt T sa i = c ∧ OccursAround Q T (saAt sa i) := by
  have hl := lfAt_lt hsa hi
  have hv := saAt_lt hsa hi
  have e : (saAt sa (lfAt T sa i) + 1) % T.length = saAt sa i := by
    rw [saAt_lfAt hsa hi, Nat.mod_add_mod, show saAt sa i + T.length - 1 + 1 = saAt sa i + T.length by omega, Nat.add_mod_right,
      Nat.mod_eq_of_lt hv]
  rw [around_cons (saAt_lt hsa hl), e, ← bwtAt_eq hsa hi]

/-- a backward-search step with any symbol -/
theorem around_step (hT : IsText T) (hsa : IsSA T sa) {Q : List Nat} {c a b : Nat} (h : AroundRange Q T sa a b) :
    AroundRange (c :: Q) T sa (cumC T c + cnt T sa c a) (cumC T c + cnt T sa c b) := by
  unfold cnt
  obtain ⟨hab, hbn, hiff⟩ := h
  have hb := count_le_of_le (fun j => bwtAt T sa j = c) hbn
  have htot := bwt_count_total hT hsa c
  refine ⟨?_, ?_, ?_⟩
  · have := count_le_of_le (fun j => bwtAt T sa j = c) hab; omega
  · have := cumC_le (T := T) (c+1); omega
  · intro k
    constructor
    · rintro ⟨hkn, hk⟩
      have hpn := psiAt_lt hsa hkn
      rw [← lf_psi hsa hkn] at hk
      obtain ⟨h1, h2⟩ := (around_match hsa hpn).1 hk
      obtain ⟨h3, h4⟩ := (hiff _).1 ⟨hpn, h2⟩
      have hf := lf_formula hT hsa hpn
      rw [lf_psi hsa hkn, h1] at hf
      rw [hf]
      have := count_le_of_le (fun j => bwtAt T sa j = c) h3
      have := Nat.count_strict_mono (p := fun j => bwtAt T sa j = c) h1 h4
      omega
    · rintro ⟨h1, h2⟩
      obtain ⟨i, h3, h4, h5, h6⟩ := exists_of_count_between (fun j => bwtAt T sa j = c)
        (show Nat.count (fun j => bwtAt T sa j = c) a ≤ k - cumC T c by omega)
        (show k - cumC T c < Nat.count (fun j => bwtAt T sa j = c) b by omega)
      have hin : i < T.length := by omega
      have hf := lf_formula hT hsa hin
      rw [h5, h6] at hf
      have hk : lfAt T sa i = k := by omega
      rw [← hk, around_match hsa hin]
      exact ⟨lfAt_lt hsa hin, h5, ((hiff i).2 ⟨h3, h4⟩).2⟩

theorem aroundRange_empty_append (hT : IsText T) (hsa : IsSA T sa) {Q : List Nat} {a b : Nat} (h : AroundRange Q T sa a b) (hab : ¬ a < b)
    (X : List Nat) : AroundRange (X ++ Q) T sa a b := by
  have hn := hT.pos
  refine ⟨h.1, h.2.1, fun i => ?_⟩
  constructor
  · rintro ⟨h1, h2⟩
    have hp : (saAt sa i + X.length) % T.length < T.length := Nat.mod_lt _ hn
    have := (h.2.2 (isaOf sa ((saAt sa i + X.length) % T.length))).1
      ⟨isaOf_lt hsa hp, by rw [saAt_isaOf hsa hp]; exact around_append h2⟩
    omega
  · omega

variable {ρ ν δ : Type}

theorem countLoop_around (hT : IsText T) (hsa : IsSA T sa) {F : Functors ρ ν δ} (hF : BackSearch F T sa (· ∈ T))
    (L : List Nat) (hL : ∀ c ∈ L, F.getSymbol c ∈ T) (Q : List Nat) (r : ρ) (hr : AroundRange Q T sa (F.bounds r).1 (F.bounds r).2) :
    ∃ r', F.countLoop L r = some r' ∧ AroundRange ((L.map F.getSymbol).reverse ++ Q) T sa (F.bounds r').1 (F.bounds r').2 := by
  induction L generalizing Q r with
  | nil => exact ⟨r, rfl, hr⟩
  | cons c L ih =>
    rw [Functors.countLoop, hF.empty]
    by_cases hlt : (F.bounds r).1 < (F.bounds r).2
    · rw [if_neg (by simp [hlt])]
      obtain ⟨nr, e1, e2⟩ := hF.lf r _ (hL c (by simp)) hlt hr.2.1
      obtain ⟨r', e3, e4⟩ := ih (fun d hd => hL d (by simp [hd])) (F.getSymbol c :: Q) (F.toRange nr)
        (by rw [e2]; exact around_step hT hsa hr)
      refine ⟨r', ?_, ?_⟩
      · rw [e1]; exact e3
      · simpa using e4
    · rw [if_pos (by simp [hlt])]
      exact ⟨r, rfl, aroundRange_empty_append hT hsa hr hlt _⟩

theorem locateLoop_around (hT : IsText T) (hsa : IsSA T sa) {F : Functors ρ ν δ} (hF : BackSearch F T sa (· ∈ T))
    {TH : List Nat → Nat → ρ → δ → Prop} (hTH : Toehold F T sa (· ∈ T) TH)
    (L : List Nat) (hL : ∀ c ∈ L, F.getSymbol c ∈ T) (Q : List Nat) (r : ρ) (d : δ)
    (hr : AroundRange Q T sa (F.bounds r).1 (F.bounds r).2)
    (hd : (F.bounds r).1 < (F.bounds r).2 → TH Q L.length r d) :
    ∃ r' d', F.locateLoop L r d = some (r', d') ∧ F.countLoop L r = some r' ∧
      AroundRange ((L.map F.getSymbol).reverse ++ Q) T sa (F.bounds r').1 (F.bounds r').2 ∧
      ((F.bounds r').1 < (F.bounds r').2 → TH ((L.map F.getSymbol).reverse ++ Q) 0 r' d') := by
  induction L generalizing Q r d with
  | nil => exact ⟨r, d, rfl, rfl, hr, hd⟩
  | cons c L ih =>
    rw [Functors.locateLoop, Functors.countLoop, hF.empty]
    by_cases hlt : (F.bounds r).1 < (F.bounds r).2
    · rw [if_neg (by simp [hlt]), if_neg (by simp [hlt])]
      obtain ⟨nr, e1, e2⟩ := hF.lf r _ (hL c (by simp)) hlt hr.2.1
      obtain ⟨d1, f1, f2⟩ := hTH.step Q (F.getSymbol c) L.length r nr d (hL c (by simp)) hr.2.1 hlt (hd hlt) e1
      obtain ⟨r', d', e3, e3', e4, e5⟩ := ih (fun d hd => hL d (by simp [hd])) (F.getSymbol c :: Q) (F.toRange nr) d1
        (by rw [e2]; exact around_step hT hsa hr) f2
      refine ⟨r', d', ?_, ?_, ?_, ?_⟩
      · simp only [e1, Option.bind_eq_bind, Option.bind_some, f1]; exact e3
      · rw [e1]; exact e3'
      · simpa using e4
      · simpa using e5
    · rw [if_pos (by simp [hlt]), if_pos (by simp [hlt])]
      exact ⟨r, d, rfl, rfl, aroundRange_empty_append hT hsa hr hlt _, fun h => absurd h hlt⟩

theorem count_around (hT : IsText T) (hsa : IsSA T sa) {F : Functors ρ ν δ} (hF : BackSearch F T sa (· ∈ T))
    (P : List Nat) (hP : ∀ c ∈ P, F.getSymbol c ∈ T) :
    ∃ a b, F.count P = some (a, b) ∧ AroundRange (P.map F.getSymbol) T sa a b := by
  obtain ⟨r', e1, e2⟩ := countLoop_around hT hsa hF P.reverse (fun c hc => hP c (by simpa using hc)) []
    (F.fullRange F.bwtSize) (by rw [hF.full]; exact aroundRange_nil)
  refine ⟨(F.bounds r').1, (F.bounds r').2, ?_, ?_⟩
  · unfold Functors.count; rw [e1]; rfl
  · simpa [List.map_reverse] using e2

/-- the terminator in a pattern leaves at most one position -/
theorem around_zero (hT : IsText T) {Q : List Nat} {k p q : Nat} (hk : Q[k]? = some 0) (hp : p < T.length) (hq : q < T.length)
    (h1 : OccursAround Q T p) (h2 : OccursAround Q T q) : p = q := by
  have hn := hT.pos
  have hkl : k < Q.length := by
    rcases Nat.lt_or_ge k Q.length with h | h
    · exact h
    · rw [List.getElem?_eq_none h] at hk; simp at hk
  have key : ∀ p, p < T.length → OccursAround Q T p → (p + k) % T.length = T.length - 1 := by
    intro p hp h
    have h3 := h k hkl
    rw [hk] at h3
    have hm : (p + k) % T.length < T.length := Nat.mod_lt _ hn
    rw [getElem?_tx hm, Option.some_inj] at h3
    exact (hT.tx_zero_iff hm).1 h3.symm
  have e : (p + k) % T.length = (q + k) % T.length := by rw [key p hp h1, key q hq h2]
  have := Nat.ModEq.add_right_cancel' (n := T.length) k e
  rwa [Nat.ModEq, Nat.mod_eq_of_lt hp, Nat.mod_eq_of_lt hq] at this

end

section
variable {T sa T' : List Nat} {ρ ν δ : Type} {F : Functors ρ ν δ} {a : Alphabet}

theorem looked_up (hT : IsText T) (hc : Compact T sa a T') (P : List Nat) {p : Nat} :
    OccursAround (P.map a.char2comp) T' p ↔ OccursAround (asLookedUp P T) T p := by
  have hn := hT.pos
  have h0 : (0 : Nat) ∈ T := by obtain ⟨u, rfl, _⟩ := hT; simp
  have hz : a.char2comp 0 = 0 := by
    have ht := hc.text
    obtain ⟨u, hu, -⟩ := hT
    obtain ⟨v, hv, -⟩ := ht
    have := hc.eq
    rw [hu, List.map_append, hv] at this
    have := congrArg List.getLast? this
    simpa using this.symm
  unfold OccursAround
  have hl : (asLookedUp P T).length = P.length := by simp [asLookedUp]
  rw [hl, List.length_map, hc.len]
  refine forall_congr' fun j => forall_congr' fun hj => ?_
  have hm : (p + j) % T.length < T.length := Nat.mod_lt _ hn
  rw [hc.eq, List.getElem?_map, List.getElem?_map, asLookedUp, List.getElem?_map, List.getElem?_eq_getElem hj,
    List.getElem?_eq_getElem hm, Option.map_some, Option.map_some, Option.map_some, Option.some_inj, Option.some_inj]
  have hin : T[(p + j) % T.length] ∈ T := List.getElem_mem hm
  by_cases hx : P[j] ∈ T
  · rw [if_pos hx]
    exact ⟨fun h => hc.inj hx hin h, fun h => by rw [h]⟩
  · rw [if_neg hx, hc.absent _ hx]
    constructor
    · intro h; exact hc.inj h0 hin (by rw [hz]; exact h)
    · intro h; rw [← h, hz]

/-- **everything an index answers**, from its answers for patterns over the text's characters and its toeholds of one-element ranges -/
theorem answersAround (hT : IsText T) (hc : Compact T sa a T') (hg : F.getSymbol = a.char2comp) (hF : BackSearch F T' sa (· ∈ T'))
    {TH : List Nat → Nat → ρ → δ → Prop} (hTH : Toehold F T' sa (· ∈ T') TH) {order : List Nat → List Nat}
    (hex : Exact F.count F.locate T sa order) (ho : order [] = []) (ho1 : ∀ x, order [x] = [x])
    (hout : ∀ Q r d, (F.bounds r).2 = (F.bounds r).1 + 1 → (F.bounds r).2 ≤ T'.length → Q.length ≤ T'.length → TH Q 0 r d →
      F.computeAll r d = some [saAt sa (F.bounds r).1]) :
    AnswersAround F.count F.locate T sa order := by
  intro P
  have hn := hc.text.pos
  have h0' : (0 : Nat) ∈ T' := by obtain ⟨u, hu, _⟩ := hc.text; rw [hu]; simp
  have hl := hc.isSA.length
  have hsym : ∀ c, F.getSymbol c ∈ T' := by
    intro c
    rw [hg]
    by_cases hx : c ∈ T
    · exact hc.mem c hx
    · rw [hc.absent c hx]; exact h0'
  obtain ⟨x, y, e1, e2⟩ := count_around hc.text hc.isSA hF P (fun c _ => hsym c)
  rw [hg] at e2
  refine ⟨x, y, e1, e2.1, by rw [hl]; exact e2.2.1, ?_, ?_⟩
  · intro i hi
    rw [← looked_up hT hc, ← e2.2.2 i, saAt_getElem hi]
    exact ⟨fun h => ⟨by omega, h⟩, fun h => h.2⟩
  · intro hne hlen
    by_cases hpat : IsPattern P T
    · obtain ⟨x', y', f1, -, -, f2⟩ := hex P hpat
      rw [e1, Option.some_inj, Prod.mk.injEq] at f1
      obtain ⟨rfl, rfl⟩ := f1
      exact f2
    · obtain ⟨z, hz1, hz2⟩ : ∃ z, z ∈ P ∧ a.char2comp z = 0 := by
        by_contra hcon
        apply hpat
        refine ⟨hne, fun c hcP => ?_⟩
        have h1 : a.char2comp c ≠ 0 := fun h => hcon ⟨c, hcP, h⟩
        have h2 : c ∈ T := by
          by_contra hx; exact h1 (hc.absent c hx)
        refine ⟨h2, ?_⟩
        rintro rfl
        apply h1
        obtain ⟨u, hu, -⟩ := hT
        obtain ⟨v, hv, -⟩ := hc.text
        have := hc.eq
        rw [hu, List.map_append, hv] at this
        have := congrArg List.getLast? this
        simpa using this.symm
      obtain ⟨k, hk⟩ := List.mem_iff_getElem?.1 hz1
      have hk' : (P.map a.char2comp)[k]? = some 0 := by rw [List.getElem?_map, hk, Option.map_some, hz2]
      have hw : y ≤ x + 1 := by
        by_contra hcon
        have q1 := (e2.2.2 x).2 ⟨Nat.le_refl _, by omega⟩
        have q2 := (e2.2.2 (x+1)).2 ⟨by omega, by omega⟩
        have := around_zero hc.text hk' (saAt_lt hc.isSA q1.1) (saAt_lt hc.isSA q2.1) q1.2 q2.2
        have := saAt_inj hc.isSA q1.1 q2.1 this
        omega
      obtain ⟨c, L, hcl⟩ : ∃ c L, P.reverse = c :: L := by
        cases h : P.reverse with
        | nil => simp at h; exact absurd h hne
        | cons c L => exact ⟨c, L, rfl⟩
      obtain ⟨nr, g1, g2⟩ := hF.lf (F.fullRange F.bwtSize) _ (hsym c) (by rw [hF.full]; exact hn) (by rw [hF.full])
      rw [hF.full] at g2
      obtain ⟨d1, f1, f2⟩ := hTH.first (F.getSymbol c) L.length (P.length - 1) nr (hsym c) g1
      obtain ⟨r', d', k1, k2, k3, k4⟩ := locateLoop_around hc.text hc.isSA hF hTH L (fun d _ => hsym d) [F.getSymbol c] (F.toRange nr) d1
        (by rw [g2]; exact around_step hc.text hc.isSA aroundRange_nil) f2
      have hnE : F.isEmpty (F.fullRange F.bwtSize) = false := by rw [hF.empty, hF.full]; simp [hn]
      have hcount : F.bounds r' = (x, y) := by
        have := e1
        unfold Functors.count at this
        rw [hcl, Functors.countLoop, hnE, if_neg (by simp), g1] at this
        simp only [Option.bind_eq_bind, Option.bind_some, k2] at this
        exact Option.some.inj this
      have hloop : F.locateLoop P.reverse (F.fullRange F.bwtSize) (F.initial (P.length - 1)) = some (r', d') := by
        rw [hcl, Functors.locateLoop, hnE]
        simp only [Bool.false_eq_true, if_false, g1, Option.bind_eq_bind, Option.bind_some, f1]; exact k1
      unfold Functors.locate
      rw [hloop]
      simp only [Option.bind_eq_bind, Option.bind_some, hF.empty, hcount]
      by_cases hlt : x < y
      · have hy : y = x + 1 := by omega
        rw [if_neg (by simp [hlt])]
        rw [hcount] at k4
        have hq : ((L.map F.getSymbol).reverse ++ [F.getSymbol c]).length ≤ T'.length := by
          have := congrArg List.length hcl
          simp only [List.length_reverse, List.length_cons] at this
          simp only [List.length_append, List.length_reverse, List.length_map, List.length_singleton]
          rw [hc.len]; rcases hlen with hlen | hlen <;> omega
        have := hout _ r' d' (by rw [hcount]; exact hy) (by rw [hcount]; exact e2.2.1) hq (k4 hlt)
        rw [hcount] at this
        rw [this, saSlice_eq hc.isSA e2.2.1, valuesUp, hy, Nat.add_sub_cancel_left]
        simp [ho1]
      · rw [if_pos (by simp [hlt]), saSlice_nil hlt, ho]; rfl

end

/-- the answers for patterns with absent characters, read off -/
theorem AnswersAround.absent {count : List Nat → Option (Nat × Nat)} {locate : List Nat → Option (List Nat)} {T sa : List Nat}
    {order : List Nat → List Nat} (h : AnswersAround count locate T sa order) (hT : IsText T) (hsa : IsSA T sa) (ho : order [] = [])
    (ho1 : ∀ x, order [x] = [x]) : AbsentExactly count locate T := by
  rintro P ⟨c, hc1, hc2⟩
  have hl := hsa.length
  have hne : P ≠ [] := by rintro rfl; simp at hc1
  obtain ⟨a, b, e1, e2, e3, e4, e5⟩ := h P
  obtain ⟨k, hk⟩ := List.mem_iff_getElem?.1 hc1
  have hk' : (asLookedUp P T)[k]? = some 0 := by rw [asLookedUp, List.getElem?_map, hk, Option.map_some, if_neg hc2]
  refine ⟨?_, ?_, ?_⟩
  · unfold occurrences
    rw [List.filter_eq_nil_iff]
    intro p _ hp
    have hp := of_decide_eq_true hp
    apply hc2
    have : c ∈ (T.drop p).take P.length := by rw [hp.2]; exact hc1
    exact List.mem_of_mem_drop (List.mem_of_mem_take this)
  · intro hno
    have hab : a = b := by
      by_contra hcon
      have ha : a < sa.length := by omega
      have := (e4 a ha).2 ⟨Nat.le_refl _, by omega⟩
      refine hno _ ?_ this
      rw [← saAt_getElem ha]; exact saAt_lt hsa (by omega)
    subst hab
    refine ⟨⟨a, e1⟩, ?_⟩
    rw [e5 hne (Or.inr rfl), saSlice_nil (by omega), ho]
  · intro p hp hocc
    have hi : isaOf sa p < sa.length := by rw [hl]; exact isaOf_lt hsa hp
    have hsp : sa[isaOf sa p] = p := by rw [← saAt_getElem hi]; exact saAt_isaOf hsa hp
    have h1 := (e4 _ hi).1 (by rw [hsp]; exact hocc)
    have huniq : ∀ i (hi : i < sa.length), a ≤ i → i < b → i = isaOf sa p := by
      intro i hi' g1 g2
      have := (e4 i hi').2 ⟨g1, g2⟩
      rw [← saAt_getElem hi'] at this
      have := around_zero hT hk' (saAt_lt hsa (by omega)) hp this hocc
      exact saAt_inj hsa (by omega) (by omega) (by rw [this, saAt_isaOf hsa hp])
    have ha := huniq a (by omega) (Nat.le_refl _) (by omega)
    have hb : b = a + 1 := by
      by_contra hcon
      have := huniq (a+1) (by omega) (by omega) (by omega)
      omega
    subst hb
    refine ⟨⟨a, e1⟩, fun hlen => ?_⟩
    rw [e5 hne (Or.inl hlen), saSlice_eq hsa (by omega), valuesUp, Nat.add_sub_cancel_left]
    simp only [List.range'_one, List.map_cons, List.map_nil]
    rw [ho1, ha, saAt_isaOf hsa hp]

end Sri
