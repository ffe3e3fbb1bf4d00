import Verif.Proofs.FailedWrites
import Verif.Proofs.CacheLoad
/-! # The index without samples that is left when the file of the sorted indices could not be written -/
namespace Sri
set_option autoImplicit false

/-- the file of the sorted indices that the sub-sampling of a type reads -/
def orderFile : IndexType → FileName
  | .srIndex => .lastSorted
  | .srCSA | .srCSASlim => .firstSorted
  | _ => .psiFirstAsc

/-- the files that are empty, or all zeros, if that one is missing -/
def lostNames : IndexType → List FileName
  | .srIndex => [.lastSorted, .subLastIdx, .subLast, .subFirstByLast, .subFirstToLast]
  | .srCSA | .srCSASlim =>
    [.firstSorted, .subFirstIdx, .subFirst, .subLastByFirst, .subLastToFirst, .subFirstPos, .alphaSubFirst, .alphaSubIdx, .alphaSubLinks]
  | _ => [.psiFirstAsc, .subPsiIdx, .subPsiFirst, .subPsiLast, .subPsiLink]

/-- the types whose construction goes on without samples -/
def Lossy (t : IndexType) : Prop := t = .srIndex ∨ t = .srCSA ∨ t = .srCSASlim ∨ t = .srCSAWithPsiRun

/-- no integers, no bit set -/
def Item.blank : Item → Item
  | .ints _ => .ints []
  | .sdVector b => .sdVector (List.replicate b.length false)
  | .bitVector b => .bitVector (List.replicate b.length false)
  | .bitRank1 b o => .bitRank1 (List.replicate b.length false) o
  | .bitSelect1 b o => .bitSelect1 (List.replicate b.length false) o
  | x => x

/-- what the files hold -/
def blanked (lost : List FileName) (I : Nat → FileRef → Option Item) (s : Nat) (r : FileRef) : Option Item :=
  if r.1 ∈ lost then (I s r).map Item.blank else I s r

theorem blanked_rateFree {lost : List FileName} {I : Nat → FileRef → Option Item} (h : RateFree I) : RateFree (blanked lost I) := by
  intro s s' r hr
  unfold blanked
  rw [h s s' r hr]

section
variable {T sa : List Nat} {v : BaseVals T sa} {w : ∀ s, RateVals v s} {bytes : List Nat} {s : Nat} {lost : List FileName}

theorem stepOK_blanked {I : Nat → FileRef → Option Item} {st : CacheStep} (h : StepOK I bytes s st)
    (h1 : ∀ q ∈ st.inputs, q.ref.1 ∉ lost) (h2 : ∀ r ∈ st.outputs.flatten, r.1 ∉ lost) : StepOK (blanked lost I) bytes s st := by
  obtain ⟨xs, ys, hx, hc, hy⟩ := h
  refine ⟨xs, ys, ?_, hc, ?_⟩
  · rw [← hx]
    exact mapM_congr' (fun q hq => if_neg (h1 q hq))
  · rw [← hy]
    exact mapM_congr' (fun r hr => if_neg (h2 r hr))

theorem bitVector_length {x : List Nat} {n : Nat} {i : Bool} {bv : List Bool} (h : bitVectorFromInts x n i = some bv) : bv.length = n := by
  unfold bitVectorFromInts at h
  simp only [Option.bind_eq_bind, Option.bind_eq_some_iff, Option.pure_def, Option.some.injEq] at h
  obtain ⟨_, -, rfl⟩ := h
  simp

/-- the bit vector of no integers -/
theorem blank_bitVector {out : FileName} {b : BvKind} {src len : FileRef} {l x : List Nat} {bv : List Bool}
    (h1 : blanked lost (ideal v w) s len = some (.ints l)) (h2 : blanked lost (ideal v w) s src = some (.ints []))
    (h3 : bitVectorFromInts x l.length false = some bv) (h4 : idealBits v w s out = some bv) (ho : out ∈ lost) :
    StepOK (blanked lost (ideal v w)) bytes s (Steps.bitVector out b src len) := by
  have hl := bitVector_length h3
  refine ⟨[.ints l, .ints []], (match b with
        | .sd => [.sdVector (List.replicate l.length false), .sdRank none, .sdSelect none]
        | .plain => [.bitVector (List.replicate l.length false), .bitRank1 (List.replicate l.length false) none,
            .bitSelect1 (List.replicate l.length false) none]), ?_, ?_, ?_⟩
  · simp only [Steps.bitVector, List.mapM_cons, List.mapM_nil, CacheRead.ref, h1, h2]; rfl
  · cases b <;> simp only [Steps.bitVector, bitVectorFromInts_nil] <;> rfl
  · cases b <;> simp only [Steps.bitVector, List.flatten_cons, List.flatten_nil, List.cons_append, List.nil_append, List.mapM_cons, List.mapM_nil,
      blanked, if_pos ho, ideal, BvKind.ty, BvKind.rankTy, BvKind.selectTy, h4, ← hl] <;> rfl

theorem subsampleIdx_nil {samples sorted links idx : List Nat} (h : SrIndex.subsampleIdx s samples sorted links = some idx) :
    SrIndex.subsampleIdx s samples [] links = some [] := by
  unfold SrIndex.subsampleIdx at h ⊢
  simp only [Option.bind_eq_bind, Option.bind_eq_some_iff] at h
  obtain ⟨a, h1, l, h2, c, h3, -⟩ := h
  simp only [h1, h2, h3, Option.bind_eq_bind, Option.bind_some]
  rfl

theorem slimLoop_blank (n : Nat) (subs : List Nat) : ∀ (l : List Nat) (i cnt : Nat) (ts : List Nat), (∀ x ∈ l, x < n) →
    SrCSA.slimLoop (List.replicate n false) subs i cnt ts l = some ([], [], ts)
  | [], _, _, _, _ => rfl
  | x :: l, i, cnt, ts, h => by
    unfold SrCSA.slimLoop
    rw [List.getElem?_replicate, if_pos (h x List.mem_cons_self)]
    simp only [Option.bind_eq_bind, Option.bind_some, Bool.false_eq_true, if_false]
    exact slimLoop_blank n subs l _ _ _ (fun y hy => h y (List.mem_cons_of_mem _ hy))

theorem slimLoop_range {bv : List Bool} {subs : List Nat} : ∀ {l : List Nat} {i cnt : Nat} {ts : List Nat} {q : List Nat × List Nat × List Nat},
    SrCSA.slimLoop bv subs i cnt ts l = some q → ∀ x ∈ l, x < bv.length
  | [], _, _, _, _, _, x, hx => by simp at hx
  | y :: l, i, cnt, ts, q, h, x, hx => by
    unfold SrCSA.slimLoop at h
    rw [Option.bind_eq_bind] at h
    obtain ⟨c, hc, h⟩ := Option.bind_eq_some_iff.1 h
    rcases List.mem_cons.1 hx with rfl | hx
    · exact (List.getElem?_eq_some_iff.1 hc).1
    · cases c with
      | false =>
        rw [if_neg (by simp)] at h
        exact slimLoop_range h x hx
      | true =>
        rw [if_pos rfl] at h
        simp only [Option.bind_eq_bind, Option.bind_eq_some_iff] at h
        obtain ⟨_, -, _, -, _, -, q', hq', -⟩ := h
        exact slimLoop_range hq' x hx

/-- the steps before the sub-sampling -/
def orderPre : IndexType → List CacheStep
  | .srIndex => Steps.rIndex
  | .srCSA | .srCSASlim => Steps.rcsaWithBWTRun
  | _ => Steps.rcsaWithPsiRun

/-- the source of the sorted indices -/
def orderSrc : IndexType → FileRef
  | .srIndex => (.lastTextPos, none)
  | .srCSA | .srCSASlim => (.firstTextPos, none)
  | _ => (.psiFirst, some .ints)

/-- the steps from the sub-sampling on -/
def orderPost (t : IndexType) (b : BvKind) : List CacheStep :=
  match t with
  | .srIndex => [Steps.samplesBackward, Steps.bitVector .subLastIdx b (.subLastIdx, none) (.last, none),
    Steps.marksBackward, Steps.bitVector .subFirstByLast .sd (.subFirstByLast, none) (.bwt, none)]
  | .srCSA => [Steps.samplesForward, Steps.marksForward, Steps.bitVector .subLastByFirst .sd (.subLastByFirst, none) (.bwt, none),
    Steps.samplesPosition, Steps.bitVector .subFirstPos b (.subFirstPos, none) (.bwt, none)]
  | .srCSASlim => [Steps.samplesForward, Steps.marksForward, Steps.bitVector .subLastByFirst .sd (.subLastByFirst, none) (.bwt, none),
    Steps.sortedByAlphabet, Steps.samplesByAlphabet, Steps.bitVector .alphaSubIdx b (.alphaSubIdx, none) (.first, none)]
  | _ => [Steps.samplesPsi, Steps.marksPsi] ++ psiPost b

theorem order_program {t : IndexType} (ht : Lossy t) (b : BvKind) :
    program t b = orderPre t ++ ([Steps.sorted (orderFile t) (orderSrc t)] ++ orderPost t b) := by
  rcases ht with rfl | rfl | rfl | rfl
  · rfl
  · simp only [program, Steps.srCSA, Steps.srCSACommons, orderPre, orderFile, orderSrc, orderPost, List.append_assoc, List.cons_append, List.nil_append]
  · simp only [program, Steps.srCSASlim, Steps.srCSACommons, orderPre, orderFile, orderSrc, orderPost, List.append_assoc, List.cons_append, List.nil_append]
  · simp only [program, Steps.srCSAWithPsiRun, orderPre, orderFile, orderSrc, orderPost, psiPost, List.append_assoc, List.cons_append, List.nil_append]

theorem blank_samplesForward : StepOK (blanked (lostNames .srCSA) (ideal v w)) bytes s Steps.samplesForward := by
  refine ⟨_, _, rfl, ?_, rfl⟩
  simp only [Steps.samplesForward, List.reverse_cons, List.reverse_nil, List.nil_append, List.cons_append]
  rw [show ∀ x : List Nat, (Item.ints x).blank = .ints [] from fun _ => rfl]
  simp only [List.reverse_nil, subsampleIdx_nil (w s).hidxF, Option.bind_eq_bind, Option.bind_some, Option.pure_def, List.mapM_nil]
  rfl

theorem blank_marksForward : StepOK (blanked (lostNames .srCSA) (ideal v w)) bytes s Steps.marksForward := by
  refine ⟨_, _, rfl, ?_, rfl⟩
  have h : SrCSA.submarksBWT { n := 0, alphabet := v.b.alphabet, bwtRle := v.b.bwtRle, runs := ⟨v.b.runs.first, [], v.b.runs.last,
    v.b.runs.lastTextPos⟩ } { psi := [], core := v.p.core } [] = some [] := by
    unfold SrCSA.submarksBWT
    simp only [v.hn', Option.bind_eq_bind, Option.bind_some, List.mapM_nil, Option.pure_def]
  simp only [Steps.marksForward, List.reverse_cons, List.reverse_nil, List.nil_append, List.cons_append]
  rw [show ∀ x : List Nat, (Item.ints x).blank = .ints [] from fun _ => rfl]
  simp only [h, Option.bind_eq_bind, Option.bind_some, Option.pure_def]
  rfl

/-- without the sorted indices the steps that follow compute nothing but empty files -/
theorem blank_steps {t : IndexType} (ht : Lossy t) (b : BvKind) :
    ∀ st ∈ orderPost t b, StepOK (blanked (lostNames t) (ideal v w)) bytes s st := by
  have hbwt : (constructBWT T sa).length = v.b.n := base_eqs.1.symm
  rcases ht with rfl | rfl | rfl | rfl
  · intro st hst
    simp only [orderPost, List.mem_cons, List.not_mem_nil, or_false] at hst
    rcases hst with rfl | rfl | rfl | rfl
    · refine ⟨_, _, rfl, ?_, rfl⟩
      simp only [Steps.samplesBackward, List.reverse_cons, List.reverse_nil, List.nil_append, List.cons_append]
      rw [show ∀ x : List Nat, (Item.ints x).blank = .ints [] from fun _ => rfl]
      simp only [subsampleIdx_nil (w s).hidxB, Option.bind_eq_bind, Option.bind_some, Option.pure_def, List.mapM_nil]
      rfl
    · exact blank_bitVector (x := (w s).idxB) rfl rfl (w s).hidxBitsB rfl (by decide)
    · exact ⟨_, _, rfl, rfl, rfl⟩
    · exact blank_bitVector (x := (w s).subB) rfl rfl (by rw [hbwt]; exact (w s).hmarkB) rfl (by decide)
  · intro st hst
    simp only [orderPost, List.mem_cons, List.not_mem_nil, or_false] at hst
    rcases hst with rfl | rfl | rfl | rfl | rfl
    · exact blank_samplesForward
    · exact blank_marksForward
    · exact blank_bitVector (x := (w s).subF) rfl rfl (by rw [hbwt]; exact (w s).hmarkF) rfl (by decide)
    · exact ⟨_, _, rfl, rfl, rfl⟩
    · exact blank_bitVector (x := (w s).posF) rfl rfl (by rw [hbwt]; exact (w s).hposBitsF) rfl (by decide)
  · intro st hst
    simp only [orderPost, List.mem_cons, List.not_mem_nil, or_false] at hst
    rcases hst with rfl | rfl | rfl | rfl | rfl | rfl
    · exact blank_samplesForward
    · exact blank_marksForward
    · exact blank_bitVector (x := (w s).subF) rfl rfl (by rw [hbwt]; exact (w s).hmarkF) rfl (by decide)
    · exact stepOK_blanked ok_sortedByAlphabet (by decide) (by decide)
    · refine ⟨_, _, rfl, ?_, rfl⟩
      have hl := bitVector_length (w s).hslimBits
      have h1 := slimLoop_blank v.sc.1.length [] v.sc.1 0 0 [] (fun x hx => by rw [← hl]; exact slimLoop_range (w s).hslim x hx)
      simp only [Steps.samplesByAlphabet, List.reverse_cons, List.reverse_nil, List.nil_append, List.cons_append]
      rw [show ∀ x : List Nat, (Item.ints x).blank = .ints [] from fun _ => rfl]
      simp only [Item.blank, bitVectorFromInts_nil, Option.bind_eq_bind, Option.bind_some, List.length_nil, List.replicate_zero, h1]
      rfl
    · exact blank_bitVector (x := (w s).slim.2.1) rfl rfl (w s).hslimIdx rfl (by decide)
  · intro st hst
    simp only [orderPost, psiPost, List.cons_append, List.nil_append, List.mem_cons, List.not_mem_nil, or_false] at hst
    rcases hst with rfl | rfl | rfl | rfl | rfl | rfl
    · refine ⟨_, _, rfl, ?_, rfl⟩
      simp only [Steps.samplesPsi, List.reverse_cons, List.reverse_nil, List.nil_append, List.cons_append]
      rw [show ∀ x : List Nat, (Item.ints x).blank = .ints [] from fun _ => rfl]
      simp only [List.reverse_nil, subsampleIdx_nil (w s).hidxP, Option.bind_eq_bind, Option.bind_some, Option.pure_def, List.mapM_nil]
      rfl
    · exact ⟨_, _, rfl, rfl, rfl⟩
    · exact blank_bitVector (x := (w s).subP) rfl rfl (by rw [hbwt]; exact (w s).hmarkP) rfl (by decide)
    · exact ⟨_, _, rfl, rfl, rfl⟩
    · exact blank_bitVector (x := (w s).idxP) rfl rfl (w s).hidxBitsP rfl (by decide)
    · exact stepOK_blanked ok_cumulativePsi (by decide) (by decide)

end

/-! ## Stores that do not fail, and files that are missing -/

section
variable {bytes : List Nat} {s : Nat} {F : File → Bool}

/-- steps whose files can all be written run as usual -/
theorem runStepsF_eq : ∀ (steps : List CacheStep) (P : Process), (∀ st ∈ steps, Writable F s st) →
    runStepsF F bytes s steps P = (runSteps bytes s steps P).2
  | [], _, _ => rfl
  | st :: rest, P, h => by
    rw [runStepsF_cons, runSteps_cons]
    split
    · exact runStepsF_eq rest P (fun st' h' => h st' (List.mem_cons_of_mem _ h'))
    · have hst := h st List.mem_cons_self
      rw [runF_writable hst]
      cases st.run bytes s P with
      | none => rfl
      | some es =>
        dsimp only
        rw [Option.bind_some, afterF_writable hst]
        exact runStepsF_eq rest _ (fun st' h' => h st' (List.mem_cons_of_mem _ h'))

/-- a file of no integers -/
def Disk.put (D : Disk) (f : File) : Disk := fun g => if g = f then some (some (.ints [])) else D g

def Process.put (P : Process) (f : File) : Process := { P with disk := P.disk.put f }

theorem put_other (D : Disk) {f g : File} (h : g ≠ f) : D.put f g = D g := if_neg h
theorem put_self (D : Disk) (f : File) : D.put f f = some (some (.ints [])) := if_pos rfl

theorem applyAll_put (f : File) : ∀ (es : List CacheEvent) (D : Disk), (∀ e ∈ es, e.file ≠ f) →
    (D.put f).applyAll es = (D.applyAll es).put f ∧ (D.applyAll es) f = D f
  | [], _, _ => ⟨rfl, rfl⟩
  | e :: es, D, h => by
    have he := h e List.mem_cons_self
    have h1 : (D.put f).apply e = (D.apply e).put f := by
      funext g
      by_cases hg : g = f
      · subst hg
        rw [put_self]
        cases e <;> simp only [Disk.apply, CacheEvent.file] at he ⊢ <;> rw [if_neg (fun h' => he h'.symm), put_self]
      · rw [put_other _ hg]
        cases e <;> simp only [Disk.apply] <;> rw [put_other _ hg]
    have h2 : (D.apply e) f = D f := by
      cases e <;> simp only [Disk.apply, CacheEvent.file] at he ⊢ <;> exact if_neg (fun h' => he h'.symm)
    obtain ⟨h3, h4⟩ := applyAll_put f es (D.apply e) (fun e' h' => h e' (List.mem_cons_of_mem _ h'))
    refine ⟨?_, h4.trans h2⟩
    change ((D.put f).apply e).applyAll es = _
    rw [h1, h3]; rfl

/-- the steps that read a file, if at all, as integers, and do not look whether it is there -/
structure Blind (r₀ : FileRef) (st : CacheStep) : Prop where
  guards : r₀ ∉ st.guards
  outputs : r₀ ∉ st.outputs.flatten
  inputs : ∀ q ∈ st.inputs, q.ref = r₀ → ∃ r, q = .load r .ints
  aliases : ∀ q ∈ st.aliases, q = ((.subPsiIdx, none), (.subPsiIdx, some .ints))

theorem fileName_ne {P : Process} (hm : MapOK P.fileMap) {r₀ r : FileRef} (h1 : r₀ ≠ (.subPsiIdx, some .ints)) (hr : r ≠ r₀) :
    P.fileName (r.file s) ≠ r₀.file s := by
  unfold Process.fileName
  cases hx : P.fileMap (r.file s) with
  | none =>
    intro e
    exact hr (file_inj e).1
  | some g =>
    obtain ⟨s', -, rfl⟩ := hm _ _ hx
    intro e
    exact h1 (file_inj e).1.symm

/-- a missing file reads as one of no integers -/
theorem runSteps_put {r₀ : FileRef} (h1 : r₀ ≠ (.subPsiIdx, some .ints)) (h2 : r₀ ≠ (.subPsiIdx, none)) :
    ∀ (steps : List CacheStep) (P : Process), (∀ st ∈ steps, Blind r₀ st) → MapOK P.fileMap → P.disk (r₀.file s) = none →
    ∀ es Q', runSteps bytes s steps (P.put (r₀.file s)) = (es, some Q') →
      ∃ Q, runSteps bytes s steps P = (es, some Q) ∧ Q' = Q.put (r₀.file s) ∧ MapOK Q.fileMap ∧ Q.disk (r₀.file s) = none
  | [], P, _, hm, hd, es, Q', hr => by
    cases hr
    exact ⟨P, rfl, rfl, hm, hd⟩
  | st :: rest, P, hst, hm, hd, es, Q', hr => by
    have hb := hst st List.mem_cons_self
    have hn : ∀ f, (P.put (r₀.file s)).fileName f = P.fileName f := fun _ => rfl
    have hg : (st.guards.any (fun r => (P.put (r₀.file s)).has (r.file s))) = st.guards.any (fun r => P.has (r.file s)) := by
      have key : ∀ l : List FileRef, r₀ ∉ l → (l.any (fun r => (P.put (r₀.file s)).has (r.file s))) = l.any (fun r => P.has (r.file s)) := by
        intro l
        induction l with
        | nil => intro _; rfl
        | cons r l ih =>
          intro hl
          rw [List.any_cons, List.any_cons, ih (fun h => hl (List.mem_cons_of_mem _ h))]
          congr 1
          unfold Process.has
          rw [hn]
          change ((P.disk.put _) _).isSome = _
          rw [put_other _ (fileName_ne hm h1 (fun e => hl (e ▸ List.mem_cons_self)))]
      exact key _ hb.guards
    have hrun : st.run bytes s (P.put (r₀.file s)) = st.run bytes s P := by
      unfold CacheStep.run
      rw [mapM_congr' (f := CacheRead.run s (P.put (r₀.file s))) (g := CacheRead.run s P) (fun q hq => ?_)]
      by_cases hq0 : q.ref = r₀
      · obtain ⟨r, rfl⟩ := hb.inputs q hq hq0
        have hr0 : r = r₀ := hq0
        subst hr0
        simp only [CacheRead.run]
        rw [hn, hm.fileName h2, hd]
        change (match (P.disk.put _) _ with
          | none => Item.new .ints
          | some c => c) = _
        rw [put_self]; rfl
      · have := fileName_ne (s := s) hm h1 hq0
        cases q with
        | load r ty =>
          simp only [CacheRead.run, CacheRead.ref] at this ⊢
          rw [hn]
          change (match (P.disk.put _) _ with
            | none => Item.new ty
            | some c => c) = _
          rw [put_other _ this]
          rfl
        | buffer r =>
          simp only [CacheRead.run, CacheRead.ref] at this ⊢
          rw [hn]
          change ((P.disk.put _) _).bind id = _
          rw [put_other _ this]
    have hrest : ∀ st' ∈ rest, Blind r₀ st' := fun st' h' => hst st' (List.mem_cons_of_mem _ h')
    rw [runSteps_cons, hg, hrun] at hr
    rw [runSteps_cons]
    split
    · rename_i hx
      rw [if_pos hx] at hr
      exact runSteps_put h1 h2 rest P hrest hm hd es Q' hr
    · rename_i hx
      rw [if_neg hx] at hr
      cases hy : st.run bytes s P with
      | none => rw [hy] at hr; cases hr
      | some es1 =>
        rw [hy] at hr
        dsimp only at hr ⊢
        have htgt : ∀ e ∈ es1, e.file ≠ r₀.file s := by
          intro e he heq
          obtain ⟨r, hr', e'⟩ := run_file hy he
          have := (file_inj (e'.trans heq)).1
          subst this
          exact hb.outputs hr'
        obtain ⟨k1, k2⟩ := applyAll_put (r₀.file s) es1 P.disk htgt
        have hafter : st.after s es1 (P.put (r₀.file s)) = (st.after s es1 P).put (r₀.file s) := by
          unfold CacheStep.after Process.put
          dsimp only
          rw [k1]
        rw [hafter] at hr
        rw [Prod.mk.injEq] at hr
        obtain ⟨hr1, hr2⟩ := hr
        obtain ⟨Q, j1, j2, j3, j4⟩ := runSteps_put h1 h2 rest (st.after s es1 P) hrest (mapOK_after hm hb.aliases) (k2.trans hd)
          _ Q' (Prod.ext rfl hr2)
        refine ⟨Q, ?_, j2, j3, j4⟩
        rw [j1, ← hr1]

end
end Sri
