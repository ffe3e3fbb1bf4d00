import Verif.Proofs.RIndex
import Verif.Proofs.RLEElements
import Verif.Model.IntAlphabet
/-! # Integer alphabets: what the construction leaves -/
namespace Sri
set_option autoImplicit false

/-- both variables refer to cell 0, so they never differ -/
theorem bwtRunsLoopRef_one (n : Nat) (i : Nat) (cells : List Nat) (prevPos : Nat) (ps : List Nat)
    (h0 : 0 < cells.length) (h : i + ps.length = cells.length) :
    bwtRunsLoopRef n i { cells := cells, symbol := 0, prev := 0 } prevPos ps =
      some { first := [], firstTextPos := [], last := [n - 1], lastTextPos := [(prevPos :: ps).getLast (by simp)] } := by
  induction ps generalizing i cells prevPos with
  | nil => rfl
  | cons p ps ih =>
    simp only [List.length_cons] at h
    have e : assignCell cells 0 i = some (cells.set 0 cells[i]) := by
      simp [assignCell, assertC, List.getElem?_eq_getElem (show i < cells.length by omega), h0]
    have e2 : (cells.set 0 cells[i])[0]? = some cells[i] := List.getElem?_set_self h0
    rw [bwtRunsLoopRef]
    simp only [e, e2, Option.bind_eq_bind, Option.bind_some, ne_eq, not_true_eq_false, if_false]
    rw [ih (i + 1) (cells.set 0 cells[i]) p (by simpa using h0) (by simp; omega)]
    simp

theorem constructBWTRunsRef_eq {bwt sa : List Nat} (h0 : 0 < bwt.length) (hl : sa.length = bwt.length) :
    constructBWTRunsRef bwt sa = some
      { first := [0], firstTextPos := [bwtTextPos bwt.length (sa.getD 0 0)],
        last := [bwt.length - 1], lastTextPos := [bwtTextPos bwt.length (sa.getD (bwt.length - 1) 0)] } := by
  rw [constructBWTRunsRef, assertC, if_pos (by simp; omega)]
  simp only [Option.bind_eq_bind, Option.bind_some, List.take_of_length_le (show sa.length ≤ bwt.length by omega)]
  cases sa with
  | nil => simp at hl; omega
  | cons p ps =>
    simp only [List.map_cons]
    rw [bwtRunsLoopRef_one _ _ _ _ _ h0 (by simp at hl ⊢; omega)]
    simp only [Option.bind_some, Option.pure_def]
    congr 2
    have e : ∀ (f : Nat → Nat) (h), (f p :: ps.map f).getLast h = f ((p :: ps).getD (bwt.length - 1) 0) := by
      intro f h
      change ((p :: ps).map f).getLast (by simp) = _
      rw [List.getLast_map, List.getLast_eq_getElem, List.getD_eq_getElem?_getD, ← hl, List.getElem?_eq_getElem (by simp),
        Option.getD_some]
    rw [e]

variable {T sa : List Nat}

/-- number of compact symbols -/
theorem sigma_dedup (hT : IsText T) (hsa : IsSA T sa) : (Alphabet.build (constructBWT T sa)).sigma = T.dedup.length := by
  have hp := constructBWT_perm hT hsa
  rw [Alphabet.sigma]
  apply List.Perm.length_eq
  rw [List.perm_ext_iff_of_nodup (by rw [Alphabet.build]; exact List.nodup_range.filter _) (List.nodup_dedup T)]
  intro c
  rw [List.mem_dedup, ← hp.mem_iff]
  simp only [Alphabet.build, List.mem_filter, List.mem_range, decide_eq_true_eq]
  constructor
  · exact fun h => h.2
  · intro h
    refine ⟨?_, h⟩
    have := (foldl_max_ge (constructBWT T sa) 0).2 c h
    omega

/-- every symbol of the text is somewhere in the BWT -/
theorem exists_bwtAt (hsa : IsSA T sa) {c : Nat} (hc : c ∈ T) : ∃ j, j < T.length ∧ bwtAt T sa j = c := by
  obtain ⟨p, hp, rfl⟩ := List.getElem_of_mem hc
  have hi := isaOf_lt hsa hp
  refine ⟨psiAt T sa (isaOf sa p), psiAt_lt hsa hi, ?_⟩
  rw [bwtAt_eq hsa (psiAt_lt hsa hi), lf_psi hsa hi, saAt_isaOf hsa hp, tx, List.getD_eq_getElem?_getD, List.getElem?_eq_getElem hp,
    Option.getD_some]

/-- one sample cannot serve two runs: a one-symbol query that is answered reports a position of another symbol. `getV` is the value of a run,
    and the only run that has a value is the first one, whose value is that of the last position of the BWT. -/
theorem RIndex.locate_one_sample {I : RIndex} {T' : List Nat} (h : I.NavOK T' sa) {β : Type} {den : β → Nat → Prop}
    {create : Range → Nat → RangeLF → Nat → Option (StepData β)} (hcr : Creates I T' sa den create)
    {F : Functors Range RangeLF (StepData β)} (hF : Navigates F I) (hg : F.getSymbol = I.alphabet.char2comp)
    (hup : F.update = updateToehold lfTrivial create) (hinit : ∀ k, (F.initial k).step = 0)
    {g : Range → Nat → Option (List Nat)} {getV : β → Option Nat}
    (hall : F.computeAll = computeAllValues g (computeToehold getV I.bwtRle.size) shrink)
    (hone : ∀ d q v, den d q → getV d = some v → q = 0 ∧ v % T'.length = (pv T' sa (T'.length - 1) + 1) % T'.length)
    {x : Nat} (hx : I.alphabet.char2comp x ∈ T') (h0 : I.alphabet.char2comp x ≠ 0) {l : List Nat} (hl : F.locate [x] = some l) :
    ∃ p ∈ l, tx T' p ≠ I.alphabet.char2comp x := by
  set c := I.alphabet.char2comp x with hc
  have hn := h.text.pos
  have B := h.backSearchOf hF
  have hth := h.toeholdAllOf hcr hF hup hinit
  have hfull := B.full
  obtain ⟨nr, e1, e2⟩ := B.lf (F.fullRange F.bwtSize) c hx (by rw [hfull]; exact hn) (by rw [hfull])
  obtain ⟨d, e3, e4⟩ := hth.first c 0 0 nr hx e1
  rw [hfull] at e2
  have hemp : F.isEmpty (F.fullRange F.bwtSize) = false := by
    rw [B.empty, hfull]; simpa using hn
  have hlt : (F.bounds (F.toRange nr)).1 < (F.bounds (F.toRange nr)).2 := by
    rw [e2]
    obtain ⟨j, hj, hjc⟩ := exists_bwtAt h.isSA hx
    have h1 := cnt_succ (T := T') (sa := sa) c j
    rw [if_pos hjc] at h1
    have h2 := cnt_mono (T := T') (sa := sa) c (show j + 1 ≤ T'.length by omega)
    have h3 : cnt T' sa c 0 = 0 := by simp [cnt]
    dsimp only
    omega
  have hemp2 : F.isEmpty (F.toRange nr) = false := by
    rw [B.empty]; simpa using hlt
  have hloc : F.locate [x] = F.computeAll (F.toRange nr) d := by
    have hg : F.getSymbol x = c := by rw [hg]
    simp only [Functors.locate, List.reverse_singleton, Functors.locateLoop, hemp, List.length_nil, List.length_singleton, Nat.sub_self,
      hg, e1, e3, Option.bind_eq_bind, Option.bind_some, hemp2, Bool.false_eq_true, if_false]
  obtain ⟨q, t1, t2, t3, t4, t5⟩ := e4 hlt
  have hstep : d.step = 0 := by simp at t4; exact t4
  rw [hloc, hall] at hl
  simp only [computeAllValues, Option.bind_eq_bind, Option.bind_eq_some_iff, Option.pure_def, Option.some_inj] at hl
  obtain ⟨k, hk, -, -, rest, -, rfl⟩ := hl
  refine ⟨k, by simp, ?_⟩
  simp only [computeToehold, Option.bind_eq_bind, Option.bind_eq_some_iff, hstep] at hk
  obtain ⟨v, hv, y, hy, z, hz, hk⟩ := hk
  obtain ⟨hq0, hvm⟩ := hone _ _ _ t1 hv
  subst hq0
  have hpv : pv T' sa (T'.length - 1) < T'.length := Nat.mod_lt _ hn
  rw [h.rle.size] at hy hk
  simp only [csub] at hy hz
  split at hy <;> [skip; exact absurd hy (by simp)]
  rw [Option.some_inj] at hy
  subst hy
  split at hz <;> [skip; exact absurd hz (by simp)]
  rw [Option.some_inj] at hz
  subst hz
  rw [cmod, if_neg (by omega), Option.some_inj, Nat.sub_zero,
    mod_back hpv (show 1 ≤ T'.length by omega) hvm.symm] at hk
  subst hk
  intro hcon
  have hb : bwtAt T' sa (T'.length - 1) = c := hcon
  have h1 := lf_last h.text h.isSA (Nat.le_refl T'.length) (show T'.length - 1 < T'.length by omega) hb (fun i h1 h2 => by omega)
  rw [hstep] at t5
  have hbd : F.bounds (F.toRange nr) = ((F.toRange nr).start, (F.toRange nr).stop) := by rw [hF.bounds]
  have t5 : lfAt T' sa (tl T' sa 0) + 1 = (F.bounds (F.toRange nr)).2 := by rw [hbd]; exact t5
  rw [e2] at t5
  dsimp only at t5
  have h2 := lf_inj h.isSA (tl_lt t2) (show T'.length - 1 < T'.length by omega) (by omega)
  have hz : (0 : Nat) ∈ T' := by obtain ⟨u, hu, -⟩ := h.text; rw [hu]; simp
  obtain ⟨j, hj, hj0⟩ := exists_bwtAt h.isSA hz
  have hd0 : hd T' sa 0 = 0 := by simp [hd, rstart]
  rw [bwt_run t2 (by omega) (by omega)] at hj0
  rw [bwt_run t2 (by omega) (by omega)] at hb
  exact h0 (by rw [← hb, hj0])

end Sri
