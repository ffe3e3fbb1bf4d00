import Verif.Model.WordObjects
import Verif.Proofs.ObjectLoad
import Verif.Props.DefaultObject
import Verif.Props.Streams
/-! # Index objects queried in machine arithmetic: the items of a loaded object are those of the constructed index -/
namespace Sri
set_option autoImplicit false

theorem partsOf_words {t : IndexType} {T sa : List Nat} {s : Nat} {p : Parts} (h : partsOf t T sa s = some p) :
    p.assemble64 t s = buildIndex64 t T sa s := by
  cases t <;> simp only [partsOf, Option.map_eq_some_iff] at h <;> obtain ⟨I, hI, rfl⟩ := h <;>
    simp only [Parts.assemble64, buildIndex64, hI, Option.map_some]
  case rIndex => rw [rIndex_parts (rindex_build_n hI) _ rfl rfl rfl rfl rfl]; rfl
  case srIndex =>
    obtain ⟨h1, h2⟩ := srindex_build_n hI
    unfold Parts.srIndex
    rw [rIndex_parts h1 _ rfl rfl rfl rfl rfl, ← h2]; rfl
  case srIndexValidMark =>
    obtain ⟨h1, h2⟩ := srindex_build_n (srvalid_build_sr hI)
    unfold Parts.srIndexValid Parts.srIndex
    rw [rIndex_parts h1 _ rfl rfl rfl rfl rfl, ← h2]; rfl
  case srIndexValidArea =>
    obtain ⟨h1, h2⟩ := srindex_build_n (srvalid_build_sr hI)
    unfold Parts.srIndexValid Parts.srIndex
    rw [rIndex_parts h1 _ rfl rfl rfl rfl rfl, ← h2]; rfl
  case rcsaWithBWTRun => rw [rcsa_parts (rcsabwt_build_n hI) _ rfl rfl rfl rfl rfl]; rfl
  case rcsaWithPsiRun => rw [rcsa_parts (rcsapsi_build_n hI) _ rfl rfl rfl rfl rfl]; rfl
  case srCSA => rw [srcsa_parts (srcsa_build_n hI).1 _ rfl rfl rfl rfl rfl rfl rfl]; rfl
  case srCSASlim => rw [srcsa_parts (srcsa_buildSlim_n hI) _ rfl rfl rfl rfl rfl rfl rfl]; rfl
  case srCSAValidMark =>
    unfold Parts.srCSAValid
    rw [srcsa_parts (srcsavalid_build_n hI).1 _ rfl rfl rfl rfl rfl rfl rfl]; rfl
  case srCSAValidArea =>
    unfold Parts.srCSAValid
    rw [srcsa_parts (srcsavalid_build_n hI).1 _ rfl rfl rfl rfl rfl rfl rfl]; rfl
  case srCSASlimValidMark =>
    unfold Parts.srCSAValid
    rw [srcsa_parts (srcsavalid_buildSlim_n hI) _ rfl rfl rfl rfl rfl rfl rfl]; rfl
  case srCSASlimValidArea =>
    unfold Parts.srCSAValid
    rw [srcsa_parts (srcsavalid_buildSlim_n hI) _ rfl rfl rfl rfl rfl rfl rfl]; rfl
  case srCSAWithPsiRun => rw [srcsa_parts (srcsa_buildPsi_n hI) _ rfl rfl rfl rfl rfl rfl rfl]; rfl
  case psiValidMark =>
    unfold Parts.srCSAValid
    rw [srcsa_parts (srcsavalid_buildPsi_n hI) _ rfl rfl rfl rfl rfl rfl rfl]; rfl
  case psiValidArea =>
    unfold Parts.srCSAValid
    rw [srcsa_parts (srcsavalid_buildPsi_n hI) _ rfl rfl rfl rfl rfl rfl rfl]; rfl

theorem assemble64_rate (p : Parts) (t : IndexType) (h : t.sampled = false) (s s' : Nat) : p.assemble64 t s = p.assemble64 t s' := by
  cases t <;> first | (cases h; done) | rfl

/-- an object over the items `p` -/
structure Object.Over (I : Object) (S : Storage) (p : Parts) : Prop where
  keys : I.keys = keyOf I.type I.pre
  full : S.Full I.type I.bv I.pre p

theorem Object.Over.queries {I : Object} {S : Storage} {p : Parts} (h : I.Over S p) (hp : p.WF I.type) :
    I.queries S = p.assemble I.type I.rate ∧ I.queries64 S = p.assemble64 I.type I.rate := by
  refine ⟨queries_full hp h.keys h.full, ?_⟩
  unfold Object.queries64
  rw [h.keys, h.full.collect hp]; rfl

/-- the object over the items of a constructed index answers as that index, in natural numbers and in machine words -/
theorem Object.Over.words {I : Object} {S : Storage} {T sa : List Nat} {s : Nat} {p : Parts} (h : I.Over S p)
    (hp : partsOf I.type T sa s = some p) (hs : I.type.sampled = true → I.rate = s) :
    I.queries S = buildIndex I.type T sa s ∧ I.queries64 S = buildIndex64 I.type T sa s := by
  obtain ⟨hwf, has⟩ := partsOf_ok hp
  obtain ⟨h1, h2⟩ := h.queries hwf
  cases ht : I.type.sampled with
  | true => rw [hs ht] at h1 h2; exact ⟨h1.trans has, h2.trans (partsOf_words hp)⟩
  | false =>
    exact ⟨h1.trans ((assemble_rate p _ ht _ _).trans has), h2.trans ((assemble64_rate p _ ht _ _).trans (partsOf_words hp))⟩

/-- what a loaded object writes, a fresh object reads back: the same items, and the rate of the stream or of the constructor -/
theorem stream_over {α : Type} {K : Codec α} {V : Item → Prop} (hK : K.FaithfulOn V) {I : Object} {S : Storage} {p : Parts} (hI : I.Over S p)
    (hp : p.WF I.type) (hV : ∀ w ∈ writes I.type I.bv, V (itemOf I.bv p w)) (ctor : Option Nat) (hr : RestoresRate I.type I.rate ctor)
    (hb : I.bv = .sd ∨ (I.type.overPositions && I.type.withMarks) = false) (rest : List α) :
    ∃ I' S', (Object.fresh I.type I.bv ctor).loadStream K [] (I.serialize K S ++ rest) = some (I', S', rest) ∧ I'.Over S' p ∧
      I'.type = I.type ∧ I'.bv = I.bv ∧ (I.type.sampled = true → I'.rate = I.rate) := by
  rw [serialize_full hp hI.keys hI.full, List.append_assoc]
  have ht : ∀ c, (Object.fresh I.type I.bv c).type = I.type := fun c => by cases c <;> rfl
  have hbv : ∀ c, (Object.fresh I.type I.bv c).bv = I.bv := fun c => by cases c <;> rfl
  have main : ∀ J : Object, J.type = I.type → J.bv = I.bv →
      ∃ S', J.loadInner K { storage := [], source := .stream ((writes I.type I.bv).flatMap (fun w => K.enc (itemOf I.bv p w)) ++ rest) } =
        some ({ J with keys := keyOf I.type J.pre }, { storage := S', source := .stream rest }) ∧
        Object.Over { J with keys := keyOf I.type J.pre } S' p := by
    intro J h1 h2
    have := loadInner_stream hK (I := J) (p := p) (by rw [h1]; exact hp) (by rw [h1, h2]; exact hV) (by rw [h1, h2]; exact hb) (S := []) (fun _ _ => rfl) rest
    rw [h1, h2] at this
    obtain ⟨S', e1, e2, e3⟩ := this
    exact ⟨S', by rw [e1, h1, h2], by dsimp only; rw [h1], by dsimp only; rw [h1, h2]; exact e3⟩
  have h1 := ht ctor
  have h2 := hbv ctor
  have h3 : I.type.rateInStream = false → I.type.sampled = true → (Object.fresh I.type I.bv ctor).rate = I.rate := by
    intro hi hsm
    rcases hr with h | h | h
    · rw [hi] at h; cases h
    · rw [hsm] at h; cases h
    · rw [h]; rfl
  generalize Object.fresh I.type I.bv ctor = J at h1 h2 h3
  have h0 : J.type.rateInStream = I.type.rateInStream := by rw [h1]
  unfold Object.loadStream
  rw [h0]
  cases hrate : I.type.rateInStream with
  | true =>
    obtain ⟨S', e1, e2⟩ := main { J with rate := I.rate } h1 h2
    refine ⟨_, S', ?_, e2, h1, h2, fun _ => rfl⟩
    simp only [if_true, hK.size, Option.bind_eq_bind, Option.bind_some, Option.pure_def]
    rw [e1]; rfl
  | false =>
    obtain ⟨S', e1, e2⟩ := main J h1 h2
    refine ⟨_, S', ?_, e2, h1, h2, fun h => h3 hrate h⟩
    simp only [Bool.false_eq_true, if_false, List.nil_append, e1, Option.bind_eq_bind, Option.bind_some, Option.pure_def]

/-- the object that construct leaves in memory holds the items of the index of the data file -/
theorem construct_over {α : Type} (K : Codec α) (bytes : List Nat) (h0 : ∀ c ∈ bytes, c ≠ 0) (hn : bytes.length + 1 < 2^64) (P : Process)
    (hP : CacheHistory bytes CleanDisk (Process.fresh Disk.empty) P) (t : IndexType) (b : BvKind) (s : Nat) :
    ∃ P' I S p, (Object.fresh t b (rateArg t s)).construct K bytes [] P = some (P', some (I, S)) ∧
      partsOf t (bytes ++ [0]) (suffixArray (bytes ++ [0])) (if t.sampled then s else 1) = some p ∧ I.Over S p ∧
      I.type = t ∧ I.bv = b ∧ (t.sampled = true → I.rate = s) := by
  obtain ⟨v, ⟨w⟩⟩ := ideal_exists h0 hn
  have hin := input_of_bytes h0
  obtain ⟨hs, hc⟩ := history_sound (v := v) (w := w) hin hP
  have hrate : (Object.fresh t b (rateArg t s)).rate = if t.sampled then s else 1 := by
    unfold rateArg
    cases t.sampled <;> rfl
  have harg : rateArg t (if t.sampled then s else 1) = rateArg t s := by
    unfold rateArg
    cases t.sampled <;> rfl
  have hpre : (Object.fresh t b (rateArg t s)).pre = buildPrefix t (if t.sampled then s else 1) := by rw [← harg]; exact fresh_pre ..
  generalize hr : (if t.sampled then s else 1) = r at *
  obtain ⟨es, P', h1, h2⟩ := construct_run hin t b r hs hc
  have h1' : constructIn bytes t b r P = some P' := by unfold constructIn; rw [h1]
  obtain ⟨p, hp, hC⟩ := ran_hasIndex h2
  have hwf := (partsOf_ok hp).1
  have load : ∀ S : Storage, Consistent (writes t b) (keyOf t (buildPrefix t r)) (itemOf b p) S →
      ∃ S', (Object.fresh t b (rateArg t s)).loadCache K S P'.cache =
        some (({ type := t, bv := b, rate := (Object.fresh t b (rateArg t s)).rate, pre := buildPrefix t r, keys := keyOf t (buildPrefix t r) } : Object), S') ∧ S'.Full t b (buildPrefix t r) p ∧
        Added (writes t b) (keyOf t (buildPrefix t r)) (itemOf b p) S S' := by
    intro S hS
    have := loadCache_holds (K := K) (I := Object.fresh t b (rateArg t s)) (C := P'.cache) (p := p) (S := S)
    rw [hpre, fresh_type, fresh_bv] at this
    obtain ⟨S', e1, -, e2, e3⟩ := this hwf (holds_of_files hC) hS
    exact ⟨S', e1, e2, e3⟩
  obtain ⟨S, h3, h4, h6⟩ := load [] (fun _ _ => Or.inl rfl)
  have hcons : Consistent (writes t b) (keyOf t (buildPrefix t r)) (itemOf b p) S := by
    intro w₁ hw₁
    cases hf : S.find (w₁.key (keyOf t (buildPrefix t r))) with
    | none => exact Or.inl rfl
    | some x =>
      rcases h6 _ _ hf with h | ⟨w₂, hw₂, e1, e2⟩
      · cases h
      · right
        rw [e2, (coherent_items (b := b) (partsOf_ok hp).1.nav _).inj _ hw₁ _ hw₂ e1]
  obtain ⟨S₂, h7, h5, -⟩ := load S hcons
  have hbase : ∀ t₀, t.constructBase = some t₀ → ∃ P₁ x, constructIn bytes t₀ b r P = some P₁ ∧
      (Object.fresh t₀ b (rateArg t s)).loadCache K [] P₁.cache = some x := by
    intro t₀ ht
    obtain ⟨-, e1, e2⟩ := program_base ht b
    obtain ⟨es₁, P₁, g1, g2⟩ := construct_run hin t₀ b r hs hc
    obtain ⟨p₁, gp, gC⟩ := ran_hasIndex g2
    obtain ⟨I₁, S₁, g3, -⟩ := load_constructed K gp gC (S := []) (fun _ _ => Or.inl rfl)
    refine ⟨P₁, (I₁, S₁), by unfold constructIn; rw [g1], ?_⟩
    rw [← harg]
    unfold rateArg at g3 ⊢
    rw [e2] at g3
    rw [e1]
    exact g3
  obtain ⟨S₃, h8, h9⟩ := construct_eq hrate h1' hbase h3 (fun _ => h7)
  refine ⟨P', _, S₃, p, h8, hp, ⟨rfl, ?_⟩, rfl, rfl, ?_⟩
  · dsimp only
    rcases h9 with rfl | ⟨-, rfl⟩
    · exact h4
    · exact h5
  · intro ht
    dsimp only
    rw [hrate, ← hr, if_pos ht]

end Sri
