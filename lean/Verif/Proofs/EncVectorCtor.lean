import Verif.Model.EncVectorCtor
import Verif.Proofs.EncGet
import Mathlib.Tactic.SplitIfs
/-! # enc_vector: the passes of the constructors (helper lemmas) -/
namespace Sri
set_option autoImplicit false
attribute [local irreducible] eliasEncode W64 wsub

namespace EncVector

/-- the samples and pointers of a sequence, from a state of the loop on -/
def smp (dens : Nat) : Nat → Nat → Nat → List Nat → List Nat
  | _, _, _, [] => []
  | 0, _, zs, v2 :: vs => v2 :: zs :: smp dens (dens - 1) v2 zs vs
  | k + 1, v1, zs, v2 :: vs => smp dens k v2 (zs + encodingLength (wsub v2 v1)) vs

/-- the codes of a sequence, from a state of the loop on -/
def cds (dens : Nat) : Nat → Nat → List Nat → List Bool
  | _, _, [] => []
  | 0, _, v2 :: vs => cds dens (dens - 1) v2 vs
  | k + 1, v1, v2 :: vs => eliasEncode (wsub v2 v1) ++ cds dens k v2 vs

theorem smp_zero (dens v1 v1' zs : Nat) (vs : List Nat) : smp dens 0 v1 zs vs = smp dens 0 v1' zs vs := by
  cases vs <;> rfl

theorem cds_zero (dens v1 v1' : Nat) (vs : List Nat) : cds dens 0 v1 vs = cds dens 0 v1' vs := by
  cases vs <;> rfl

theorem smp_length (dens : Nat) (vs : List Nat) : ∀ k v1 v1' zs zs', (smp dens k v1 zs vs).length = (smp dens k v1' zs' vs).length := by
  induction vs with
  | nil => intros; cases ‹Nat› <;> simp [smp]
  | cons v vs ih =>
    intro k v1 v1' zs zs'
    cases k with
    | zero => simp only [smp, List.length_cons]; rw [ih]
    | succ k => simp only [smp]; rw [ih]

theorem buildLoop_eq (dens : Nat) (vs : List Nat) : ∀ k v1 sp z, buildLoop dens k v1 sp z vs =
    (sp ++ smp dens k v1 z.length vs ++ [0, z.length + (cds dens k v1 vs).length + 1], z ++ cds dens k v1 vs) := by
  induction vs with
  | nil => intro k v1 sp z; cases k <;> simp [buildLoop, smp, cds]
  | cons v vs ih =>
    intro k v1 sp z
    cases k with
    | zero => rw [buildLoop, ih]; simp [smp, cds]
    | succ k =>
      rw [buildLoop, ih]
      simp [smp, cds, encodingLength, Nat.add_assoc]

theorem measure_eq (dens : Nat) (vs : List Nat) : ∀ k v1 zs (M : Measured),
    2 * (measure dens k v1 M vs).samples = 2 * M.samples + (smp dens k v1 zs vs).length ∧
    (measure dens k v1 M vs).zSize = M.zSize + (cds dens k v1 vs).length ∧
    M.maxSample ≤ (measure dens k v1 M vs).maxSample ∧
    ∀ x ∈ smp dens k v1 zs vs, x ≤ (measure dens k v1 M vs).maxSample ∨ x ≤ zs + (cds dens k v1 vs).length := by
  induction vs with
  | nil => intro k v1 zs M; cases k <;> simp [measure, smp, cds]
  | cons v vs ih =>
    intro k v1 zs M
    cases k with
    | zero =>
      rw [measure, smp, cds]
      obtain ⟨h1, h2, h3, h4⟩ := ih (dens - 1) v zs
        { M with maxSample := if M.maxSample < v then v else M.maxSample, samples := M.samples + 1 }
      dsimp only at h1 h2 h3
      refine ⟨by rw [h1]; simp only [List.length_cons]; omega, h2, ?_, ?_⟩
      · refine Nat.le_trans ?_ h3; split_ifs <;> omega
      · intro x hx
        rcases List.mem_cons.1 hx with rfl | hx
        · left; refine Nat.le_trans ?_ h3; split_ifs <;> omega
        · rcases List.mem_cons.1 hx with rfl | hx
          · right; omega
          · exact h4 x hx
    | succ k =>
      rw [measure, smp, cds]
      obtain ⟨h1, h2, h3, h4⟩ := ih k v (zs + encodingLength (wsub v v1)) { M with zSize := M.zSize + encodingLength (wsub v v1) }
      dsimp only at h1 h2 h3
      refine ⟨h1, by rw [h2, List.length_append, encodingLength]; omega, h3, ?_⟩
      intro x hx
      rcases h4 x hx with h | h
      · exact Or.inl h
      · right; rw [List.length_append]; rw [encodingLength] at h; omega

theorem setCell_append {w v b : Nat} {pre post : List Nat} {j : Nat} (hj : pre.length = j) (hv : v < 2 ^ w) :
    setCell w (pre ++ b :: post) j v = some (pre ++ v :: post) := by
  subst hj
  rw [setCell, if_pos (by simp), Nat.mod_eq_of_lt hv]
  simp

theorem putCode_append {pre post : List Bool} {pos x : Nat} (hp : pre.length = pos) (hl : encodingLength x ≤ post.length) :
    putCode (pre ++ post) pos x = some (pre ++ eliasEncode x ++ post.drop (encodingLength x)) := by
  subst hp
  rw [putCode, if_pos (by rw [List.length_append]; omega), List.take_left, List.drop_append, List.drop_of_length_le (by omega)]
  simp

theorem writeSamples_eq (dens w : Nat) (vs : List Nat) : ∀ k v1 j zs (pre post : List Nat), pre.length = j →
    post.length = (smp dens k v1 zs vs).length + 2 → (∀ x ∈ smp dens k v1 zs vs, x < 2 ^ w) →
    zs + (cds dens k v1 vs).length + 1 < 2 ^ w →
    writeSamples dens w k v1 j zs (pre ++ post) vs =
      some (pre ++ smp dens k v1 zs vs ++ [0, zs + (cds dens k v1 vs).length + 1]) := by
  induction vs with
  | nil =>
    intro k v1 j zs pre post hj hl _ hz
    have hs : smp dens k v1 zs [] = [] := by cases k <;> rfl
    have hc : cds dens k v1 [] = [] := by cases k <;> rfl
    rw [hs] at hl
    rw [hc, List.length_nil, Nat.add_zero] at hz
    match post, hl with
    | [b, c], _ =>
      rw [writeSamples.eq_def]
      simp only [hs, hc]
      rw [setCell_append hj (by exact Nat.two_pow_pos w)]
      simp only [Option.bind_eq_bind, Option.bind_some]
      rw [show pre ++ [0, c] = (pre ++ [0]) ++ c :: [] by simp, setCell_append (by simp [hj]) hz]
      simp
  | cons v vs ih =>
    intro k v1 j zs pre post hj hl hv hz
    cases k with
    | zero =>
      rw [smp] at hl hv
      rw [cds] at hz
      match post, hl with
      | b :: c :: post, hl =>
        rw [writeSamples, setCell_append hj (hv v (by simp))]
        simp only [Option.bind_eq_bind, Option.bind_some]
        rw [show pre ++ v :: c :: post = (pre ++ [v]) ++ c :: post by simp, setCell_append (by simp [hj]) (hv zs (by simp))]
        simp only [Option.bind_some]
        rw [show (pre ++ [v]) ++ zs :: post = (pre ++ [v, zs]) ++ post by simp,
          ih (dens-1) v (j+2) zs _ post (by simp [hj]) (by simp only [List.length_cons] at hl; omega)
            (fun x hx => hv x (by simp [hx])) hz, smp, cds]
        simp
    | succ k =>
      rw [smp] at hl hv
      rw [cds, List.length_append, ← Nat.add_assoc] at hz
      rw [writeSamples, ih k v j _ pre post hj hl hv hz, smp, cds, List.length_append, encodingLength, ← Nat.add_assoc]

theorem writeCodes_eq (dens : Nat) (vs : List Nat) : ∀ k v1 pos (pre post : List Bool), pre.length = pos →
    post.length = (cds dens k v1 vs).length → writeCodes dens k v1 pos (pre ++ post) vs = some (pre ++ cds dens k v1 vs) := by
  induction vs with
  | nil =>
    intro k v1 pos pre post hp hl
    have hc : cds dens k v1 [] = [] := by cases k <;> rfl
    rw [hc] at hl
    rw [List.eq_nil_of_length_eq_zero hl, hc, writeCodes.eq_def]
  | cons v vs ih =>
    intro k v1 pos pre post hp hl
    cases k with
    | zero => rw [writeCodes, cds]; exact ih _ _ _ _ _ hp hl
    | succ k =>
      rw [cds, List.length_append] at hl
      rw [writeCodes, putCode_append hp (by rw [encodingLength]; omega)]
      simp only [Option.bind_eq_bind, Option.bind_some]
      rw [ih k v _ (pre ++ eliasEncode (wsub v v1)) _ (by rw [List.length_append, hp, encodingLength])
        (by rw [List.length_drop, encodingLength]; omega), cds, List.append_assoc]

theorem writeBoth_eq (dens w : Nat) (vs : List Nat) : ∀ k v1 j zs (pre post : List Nat) (zpre zpost : List Bool) (b c : Nat),
    pre.length = j → post.length = (smp dens k v1 zs vs).length → (∀ x ∈ smp dens k v1 zs vs, x < 2 ^ w) →
    zpre.length = zs → zpost.length = (cds dens k v1 vs).length →
    writeBoth dens w k v1 j zs (pre ++ post ++ [b, c]) (zpre ++ zpost) vs =
      some (pre ++ smp dens k v1 zs vs ++ [b, c], zpre ++ cds dens k v1 vs) := by
  induction vs with
  | nil =>
    intro k v1 j zs pre post zpre zpost b c hj hl _ hz hzl
    have hs : smp dens k v1 zs [] = [] := by cases k <;> rfl
    have hc : cds dens k v1 [] = [] := by cases k <;> rfl
    rw [hs] at hl; rw [hc] at hzl
    rw [List.eq_nil_of_length_eq_zero hl, List.eq_nil_of_length_eq_zero hzl, hs, hc, writeBoth.eq_def]
  | cons v vs ih =>
    intro k v1 j zs pre post zpre zpost b c hj hl hv hz hzl
    cases k with
    | zero =>
      rw [smp] at hl hv
      rw [cds] at hzl
      match post, hl with
      | p :: q :: post, hl =>
        rw [writeBoth, show pre ++ p :: q :: post ++ [b, c] = pre ++ p :: (q :: post ++ [b, c]) by simp,
          setCell_append hj (hv v (by simp))]
        simp only [Option.bind_eq_bind, Option.bind_some]
        rw [show pre ++ v :: (q :: post ++ [b, c]) = (pre ++ [v]) ++ q :: (post ++ [b, c]) by simp,
          setCell_append (by simp [hj]) (hv zs (by simp))]
        simp only [Option.bind_some]
        rw [show (pre ++ [v]) ++ zs :: (post ++ [b, c]) = (pre ++ [v, zs]) ++ post ++ [b, c] by simp,
          ih (dens-1) v (j+2) zs _ post zpre zpost b c (by simp [hj]) (by simp only [List.length_cons] at hl; omega)
            (fun x hx => hv x (by simp [hx])) hz hzl, smp, cds]
        simp
    | succ k =>
      rw [smp] at hl hv
      rw [cds, List.length_append] at hzl
      rw [writeBoth, putCode_append hz (by rw [encodingLength]; omega)]
      simp only [Option.bind_eq_bind, Option.bind_some]
      rw [ih k v j _ pre post (zpre ++ eliasEncode (wsub v v1)) _ b c hj hl hv (by rw [List.length_append, hz, encodingLength])
        (by rw [List.length_drop, encodingLength]; omega), smp, cds, List.append_assoc zpre]

/-- every sample, every pointer and the last entry fit in the width -/
theorem Measured.fits (M : Measured) (x : Nat) (h : x ≤ M.maxSample ∨ x ≤ M.zSize + 1) : x < 2 ^ M.width := by
  have h1 : M.maxSample < 2 ^ (Nat.log2 M.maxSample + 1) := Nat.lt_log2_self
  have h2 : M.zSize + 1 < 2 ^ (Nat.log2 (M.zSize + 1) + 1) := Nat.lt_log2_self
  unfold Measured.width
  split_ifs with hc <;> omega

/-- what both constructors allocate -/
theorem measure_ctor (dens v1 : Nat) (c : List Nat) :
    let M := measure dens 0 v1 { maxSample := 0, samples := 0, zSize := 0 } c
    2 * M.samples = (smp dens 0 v1 0 c).length ∧ M.zSize = (cds dens 0 v1 c).length ∧
      ∀ x, x ∈ smp dens 0 v1 0 c ∨ x ≤ M.zSize + 1 → x < 2 ^ M.width := by
  obtain ⟨h1, h2, _, h4⟩ := measure_eq dens c 0 v1 0 { maxSample := 0, samples := 0, zSize := 0 }
  simp only [Nat.mul_zero, Nat.zero_add] at h1 h2 h4
  refine ⟨h1, h2, fun x hx => Measured.fits _ x ?_⟩
  rcases hx with hx | hx
  · rcases h4 x hx with h | h
    · exact Or.inl h
    · right; rw [h2]; omega
  · exact Or.inr hx

theorem ofContainer_eq (dens : Nat) (c : List Nat) : ofContainer dens c = some (build dens c) := by
  unfold ofContainer build
  split_ifs with hn
  · rfl
  obtain ⟨h1, h2, h3⟩ := measure_ctor dens (c.headD 0) c
  generalize measure dens 0 (c.headD 0) { maxSample := 0, samples := 0, zSize := 0 } c = M at h1 h2 h3 ⊢
  have e1 := smp_zero dens (c.getLastD 0) (c.headD 0) 0 c
  have e2 := cds_zero dens (c.getLastD 0) (c.headD 0) c
  have hw := writeSamples_eq dens M.width c 0 (c.getLastD 0) 0 0 [] (List.replicate (2 * M.samples + 2) 0) rfl
    (by rw [e1, List.length_replicate, h1]) (by rw [e1]; exact fun x hx => h3 x (Or.inl hx)) (by rw [e2]; exact h3 _ (Or.inr (by omega)))
  have hz := writeCodes_eq dens c 0 (c.getLastD 0) 0 [] (List.replicate M.zSize false) rfl (by rw [e2, List.length_replicate, h2])
  rw [List.nil_append] at hw hz
  dsimp only
  rw [hw]
  simp only [Option.bind_eq_bind, Option.bind_some]
  rw [hz]
  simp only [Option.bind_some, buildLoop_eq, List.length_nil, List.nil_append, e1, e2]

theorem ofBuffer_eq (dens : Nat) (c : List Nat) : ofBuffer dens c =
    some { build dens c with sp := (build dens c).sp.take ((build dens c).sp.length - 2) ++ (if c = [] then [] else [0, 0]) } := by
  unfold ofBuffer build
  by_cases hn : c = []
  · subst hn; simp
  rw [if_neg (by simpa using hn), if_neg hn, if_neg hn]
  obtain ⟨h1, h2, h3⟩ := measure_ctor dens 0 c
  generalize measure dens 0 0 { maxSample := 0, samples := 0, zSize := 0 } c = M at h1 h2 h3 ⊢
  have e1 := smp_zero dens (c.getLastD 0) 0 0 c
  have e2 := cds_zero dens (c.getLastD 0) 0 c
  have e3 := smp_zero dens (c.headD 0) 0 0 c
  have e4 := cds_zero dens (c.headD 0) 0 c
  have hw := writeBoth_eq dens M.width c 0 (c.getLastD 0) 0 0 [] (List.replicate (2 * M.samples) 0) [] (List.replicate M.zSize false) 0 0 rfl
    (by rw [e1, List.length_replicate, h1]) (by rw [e1]; exact fun x hx => h3 x (Or.inl hx)) rfl
    (by rw [e2, List.length_replicate, h2])
  rw [List.nil_append, List.nil_append, show List.replicate (2 * M.samples) 0 ++ [0, 0] = List.replicate (2 * M.samples + 2) 0 by
    rw [← List.replicate_append_replicate]; rfl] at hw
  dsimp only
  rw [hw]
  simp only [Option.bind_eq_bind, Option.bind_some, buildLoop_eq, List.length_nil, List.nil_append, e1, e2, e3, e4]
  simp

end EncVector

/-! ## reading -/

theorem EncRep.congr {E E' : EncVector} {vs : List Nat} (h : EncRep E vs) (hd : E'.dens = E.dens) (hs : E'.size = E.size) (hz : E'.z = E.z)
    (hsp : ∀ k, k * E.dens < vs.length → E'.sp[2*k]? = E.sp[2*k]? ∧ E'.sp[2*k+1]? = E.sp[2*k+1]?) : EncRep E' vs := by
  refine ⟨by rw [hd]; exact h.dens, by rw [hs]; exact h.size, by rw [hd, hz]; exact h.cell, ?_⟩
  intro k hk
  rw [hd] at hk ⊢
  rw [(hsp k hk).1, (hsp k hk).2]
  exact h.sample k hk

theorem EncVector.buffer_rep {dens : Nat} (hd : 2 ≤ dens) (vs : List Nat) : ∃ E, EncVector.ofBuffer dens vs = some E ∧ EncRep E vs ∧
    E.dens = dens := by
  refine ⟨_, EncVector.ofBuffer_eq dens vs, ?_, by dsimp only [EncVector.build]; split <;> rfl⟩
  have hr := EncVector.build_rep hd vs
  refine hr.congr rfl rfl rfl (fun k hk => ?_)
  have hde : (EncVector.build dens vs).dens = dens := by dsimp only [EncVector.build]; split <;> rfl
  have hn : vs ≠ [] := by rintro rfl; simp at hk
  obtain ⟨sp', z', h1, h2⟩ := written_loop hd vs vs 0 0 (vs.headD 0) [] [] (by simp) (by omega) (by simp) (by omega) (by omega)
    ⟨by simp [eoff], by intro j hj; omega, by simp; omega, by intro k hk; omega⟩
  have hsp : (EncVector.build dens vs).sp = sp' ++ [0, z'.length + 1] := by
    rw [EncVector.build, if_neg hn, h1]
  rw [hde] at hk
  obtain ⟨_, s2⟩ := h2.sample k hk
  have hl : 2 * k + 1 < sp'.length := by
    by_contra hc
    rw [List.getElem?_eq_none (by omega)] at s2; exact absurd s2 (by simp)
  dsimp only
  rw [hsp, show (sp' ++ [0, z'.length + 1]).length - 2 = sp'.length by simp, List.take_left]
  constructor
  · rw [List.getElem?_append_left (by omega), List.getElem?_append_left (by omega)]
  · rw [List.getElem?_append_left (by omega), List.getElem?_append_left (by omega)]

theorem wsub_trans {a x y : Nat} (hx : x < W64) (hy : y < W64) : (wsub x y + wsub a x) % W64 = wsub a y := by
  unfold wsub
  rw [← Nat.add_mod, show x + W64 - y + (a + W64 - x) = a + W64 - y + W64 by omega, Nat.add_mod_right]

/-- the sums decoded from a sample on are the differences to the sample -/
theorem decodeSums_spec {E : EncVector} {vs : List Nat} (h : EncRep E vs) (hv : ∀ v ∈ vs, v < W64) (b m : Nat) :
    ∀ j, b ≤ j → j + m < vs.length → (∀ i, j < i → i ≤ j + m → i % E.dens ≠ 0) →
      EncVector.decodeSums E.z (eoff E.dens vs (j+1)) m (wsub (vs.getD j 0) (vs.getD b 0)) =
        some ((List.range m).map (fun t => wsub (vs.getD (j + 1 + t) 0) (vs.getD b 0))) := by
  have hlt : ∀ i, i < vs.length → vs.getD i 0 < W64 := by
    intro i hi
    rw [List.getD_eq_getElem?_getD, List.getElem?_eq_getElem hi]
    exact hv _ (List.getElem_mem hi)
  induction m with
  | zero => intro j _ hj _; rw [EncVector.decodeSums, List.range_zero, List.map_nil]
  | succ m ih =>
    intro j hb hj hno
    rw [EncVector.decodeSums, h.cell (j+1) (by omega) (hno (j+1) (by omega) (by omega))]
    simp only [Option.bind_eq_bind, Option.bind_some]
    have e : (wsub (vs.getD j 0) (vs.getD b 0) + edelta vs (j+1)) % W64 = wsub (vs.getD (j+1) 0) (vs.getD b 0) := by
      rw [edelta, Nat.add_sub_cancel]
      exact wsub_trans (hlt _ (by omega)) (hlt _ (by omega))
    rw [e, ih (j+1) (by omega) (by omega) (fun i h1 h2 => hno i (by omega) (by omega))]
    have e2 : ∀ t, j + 1 + 1 + t = j + 1 + (t + 1) := by intro t; omega
    simp only [Option.bind_some, Option.pure_def, List.range_succ_eq_map, List.map_cons, List.map_map, Nat.add_zero, Function.comp_def,
      Nat.succ_eq_add_one, e2]

theorem EncRep.inter {E : EncVector} {vs : List Nat} (h : EncRep E vs) (hv : ∀ v ∈ vs, v < W64) {i : Nat} (hi : i * E.dens < vs.length) :
    E.interSampled i = some ((List.range (min E.dens (vs.length - i * E.dens))).map
      (fun t => wsub (vs.getD (i * E.dens + t) 0) (vs.getD (i * E.dens) 0))) := by
  have hd := h.dens
  obtain ⟨_, s2⟩ := h.sample i hi
  have e3 : eoff E.dens vs (i * E.dens + 1) = eoff E.dens vs (i * E.dens) := by
    rw [eoff, if_pos (Nat.mul_mod_left _ _)]; rfl
  have hw0 : wsub (vs.getD (i * E.dens) 0) (vs.getD (i * E.dens) 0) = 0 := by
    have := W64_pos
    unfold wsub
    rw [show vs.getD (i * E.dens) 0 + W64 - vs.getD (i * E.dens) 0 = W64 by omega, Nat.mod_self]
  have key : ∀ m, i * E.dens + m < vs.length → m < E.dens → EncVector.decodeSums E.z (eoff E.dens vs (i * E.dens)) m 0 =
      some ((List.range m).map (fun t => wsub (vs.getD (i * E.dens + 1 + t) 0) (vs.getD (i * E.dens) 0))) := by
    intro m hm hmd
    have := decodeSums_spec h hv (i * E.dens) m (i * E.dens) (Nat.le_refl _) hm (by
      intro x h1 h2 h3
      obtain ⟨q, hq⟩ := Nat.dvd_of_mod_eq_zero h3
      rw [hq, Nat.mul_comm E.dens q] at h1 h2
      have a1 := Nat.lt_of_mul_lt_mul_right h1
      have : (i + 1) * E.dens ≤ q * E.dens := Nat.mul_le_mul_right _ (by omega)
      rw [Nat.add_mul, Nat.one_mul] at this
      omega)
    rw [e3, hw0] at this
    exact this
  have fin : ∀ m, (0 :: (List.range m).map (fun t => wsub (vs.getD (i * E.dens + 1 + t) 0) (vs.getD (i * E.dens) 0))) =
      (List.range (m + 1)).map (fun t => wsub (vs.getD (i * E.dens + t) 0) (vs.getD (i * E.dens) 0)) := by
    intro m
    have e0 : i * E.dens + 0 = i * E.dens := Nat.add_zero _
    rw [List.range_succ_eq_map, List.map_cons, e0, hw0, List.map_map]
    have e2 : ∀ t, i * E.dens + 1 + t = i * E.dens + (t + 1) := by intro t; omega
    simp only [Function.comp_def, Nat.succ_eq_add_one, e2]
  unfold EncVector.interSampled
  rw [h.size]
  split_ifs with hc
  · simp only [Option.bind_eq_bind, s2, Option.bind_some, key (E.dens - 1) (by omega) (by omega), Option.pure_def]
    rw [fin, show E.dens - 1 + 1 = min E.dens (vs.length - i * E.dens) by omega]
  · simp only [assertC, hi, decide_true, if_true, Option.bind_eq_bind, s2, Option.bind_some,
      key (vs.length - i * E.dens - 1) (by omega) (by omega), Option.pure_def]
    rw [fin, show vs.length - i * E.dens - 1 + 1 = min E.dens (vs.length - i * E.dens) by omega]

end Sri
