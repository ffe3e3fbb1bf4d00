import Verif.Model.SharedDir
import Verif.Props.Crash
/-! # One directory for several data sets: names and moves -/
namespace Sri
set_option autoImplicit false

/-- hashes of types are decimal numbers, and different for different types -/
structure GoodHash (hash : ItemType → List Char) : Prop where
  nonempty : ∀ ty, hash ty ≠ []
  digits : ∀ ty, ∀ c ∈ hash ty, c.isDigit = true
  inj : ∀ ty ty', hash ty = hash ty' → ty = ty'

/-- the id `b` is not the id `a` with words of the library's keys, or numbers, in front of it -/
def FreeOf (a b : List Char) : Prop := ∀ c, b = c ++ '_' :: a → ∃ w ∈ wordsOf c, isKeyWord w = false

/-- two ids such that no file of the one can have the name of a file of the other: they differ, and neither is the other one with nothing but
    words of the library's keys and numbers in front of it -/
def Separated (a b : List Char) : Prop := a ≠ b ∧ FreeOf a b ∧ FreeOf b a

theorem Separated.symm {a b : List Char} (h : Separated a b) : Separated b a := ⟨fun e => h.1 e.symm, h.2.2, h.2.1⟩

/-- in particular ids of which neither ends in an underscore and the other -/
theorem separated_of_suffix {a b : List Char} (h : a ≠ b) (h1 : ¬ '_' :: a <:+ b) (h2 : ¬ '_' :: b <:+ a) : Separated a b :=
  ⟨h, fun c e => absurd ⟨c, e.symm⟩ h1, fun c e => absurd ⟨c, e.symm⟩ h2⟩

theorem wordsOf_ne_nil : ∀ l, wordsOf l ≠ []
  | [] => by simp [wordsOf]
  | c :: l => by
    unfold wordsOf
    split
    · simp
    · split <;> simp

theorem wordsOf_append (c : List Char) : ∀ x, wordsOf (x ++ '_' :: c) = wordsOf x ++ wordsOf c
  | [] => by simp [wordsOf]
  | d :: x => by
    have ih := wordsOf_append c x
    rw [List.cons_append]
    by_cases h : d = '_'
    · simp only [wordsOf, if_pos h, ih, List.cons_append]
    · simp only [wordsOf, if_neg h, ih]
      cases hx : wordsOf x with
      | nil => exact absurd hx (wordsOf_ne_nil x)
      | cons w ws => rfl

theorem wordsOf_digits : ∀ {l : List Char}, (∀ c ∈ l, c.isDigit = true) → wordsOf l = [l]
  | [], _ => rfl
  | c :: l, h => by
    have hc : c ≠ '_' := by
      rintro rfl
      exact absurd (h '_' List.mem_cons_self) (by decide)
    simp only [wordsOf, if_neg hc, wordsOf_digits (fun d hd => h d (List.mem_cons_of_mem _ hd))]

theorem isKeyWord_digits {l : List Char} (h0 : l ≠ []) (h : ∀ c ∈ l, c.isDigit = true) : isKeyWord l = true := by
  unfold isKeyWord
  rw [List.all_eq_true.2 h]
  cases l with
  | nil => exact absurd rfl h0
  | cons c l => rfl

theorem wellNamed_words {f : File} (h : wellNamed f = true) : ∀ w ∈ wordsOf f.1, isKeyWord w = true := by
  unfold wellNamed at h
  rw [Bool.and_eq_true] at h
  exact List.all_eq_true.1 h.2

/-- the name of a file without the id is made of words of the library's -/
theorem typed_words {hash : ItemType → List Char} (hh : GoodHash hash) {f : File} (h : wellNamed f = true) :
    ∀ w ∈ wordsOf (f.1 ++ (match f.2 with | none => [] | some ty => '_' :: hash ty)), isKeyWord w = true := by
  cases hf : f.2 with
  | none => simpa using wellNamed_words h
  | some ty =>
    dsimp only
    intro w hw
    rw [wordsOf_append, wordsOf_digits (hh.digits ty), List.mem_append, List.mem_singleton] at hw
    rcases hw with hw | rfl
    · exact wellNamed_words h w hw
    · exact isKeyWord_digits (hh.nonempty ty) (hh.digits ty)

theorem ids_apart {a b x y : List Char} (hb : FreeOf a b) (hab : a ≠ b) (hx : ∀ w ∈ wordsOf x, isKeyWord w = true)
    (hl : a.length ≤ b.length) : x ++ '_' :: a ≠ y ++ '_' :: b := by
  intro e
  have h1 : '_' :: a <:+ y ++ '_' :: b := ⟨x, e⟩
  have h2 : '_' :: b <:+ y ++ '_' :: b := ⟨y, rfl⟩
  have h3 := List.suffix_of_suffix_length_le h1 h2 (by simpa using hl)
  rcases List.suffix_cons_iff.1 h3 with h4 | ⟨c, h4⟩
  · exact hab (List.cons.inj h4).2
  · obtain ⟨w, hw, hw'⟩ := hb c h4.symm
    rw [← h4, ← List.cons_append, ← List.append_assoc] at e
    have e := List.append_cancel_right e
    have := hx w (by rw [e, wordsOf_append]; exact List.mem_append_right _ hw)
    rw [this] at hw'
    cases hw'

theorem diskName_ne {hash : ItemType → List Char} (hh : GoodHash hash) {a b : List Char} (h : Separated a b) {f g : File}
    (hf : wellNamed f = true) (hg : wellNamed g = true) : diskName hash a f ≠ diskName hash b g := by
  intro e
  unfold diskName at e
  have e := List.append_cancel_right e
  rcases Nat.le_total a.length b.length with hl | hl
  · exact ids_apart h.2.1 h.1 (typed_words hh hf) hl e
  · exact ids_apart h.2.2 (fun e => h.1 e.symm) (typed_words hh hg) hl e.symm

theorem wellNamed_last {f : File} (h : wellNamed f = true) : ∃ l c, f.1 = l ++ [c] ∧ c.isDigit = false := by
  unfold wellNamed at h
  rw [Bool.and_eq_true] at h
  replace h := h.1
  cases hl : f.1.getLast? with
  | none => rw [hl] at h; cases h
  | some c =>
    rw [hl] at h
    obtain ⟨l, hl'⟩ := List.getLast?_eq_some_iff.1 hl
    exact ⟨l, c, hl', by simpa using h⟩

theorem digits_split {a b : List Char} {c d : Char} (hc : c.isDigit = false) (hd : d.isDigit = false) :
    ∀ {x y : List Char}, (∀ z ∈ x, z.isDigit = true) → (∀ z ∈ y, z.isDigit = true) → x ++ c :: a = y ++ d :: b → x = y ∧ c :: a = d :: b
  | [], [], _, _, h => ⟨rfl, h⟩
  | [], z :: y, _, hy, h => by
    have := (List.cons.inj h).1
    rw [this, hy z List.mem_cons_self] at hc
    cases hc
  | z :: x, [], hx, _, h => by
    have := (List.cons.inj h).1
    rw [← this, hx z List.mem_cons_self] at hd
    cases hd
  | z :: x, z' :: y, hx, hy, h => by
    obtain ⟨h1, h2⟩ := List.cons.inj h
    obtain ⟨h3, h4⟩ := digits_split hc hd (fun q hq => hx q (List.mem_cons_of_mem _ hq)) (fun q hq => hy q (List.mem_cons_of_mem _ hq)) h2
    exact ⟨by rw [h1, h3], h4⟩

/-- a name of the library's determines the file -/
theorem diskName_inj {hash : ItemType → List Char} (hh : GoodHash hash) {id : List Char} {f g : File} (hf : wellNamed f = true)
    (hg : wellNamed g = true) (h : diskName hash id f = diskName hash id g) : f = g := by
  obtain ⟨k, ty⟩ := f
  obtain ⟨k', ty'⟩ := g
  obtain ⟨l, c, h1, hc⟩ := wellNamed_last hf
  obtain ⟨l', c', h1', hc'⟩ := wellNamed_last hg
  dsimp only at h1 h1'
  unfold diskName at h
  replace h := List.append_cancel_right (List.append_cancel_right h)
  dsimp only at h
  have us : Char.isDigit '_' = false := by decide
  have rev : ∀ t, ∀ z ∈ (hash t).reverse, z.isDigit = true := fun t z hz => hh.digits t z (List.mem_reverse.1 hz)
  have noty : ∀ (k k' : List Char) (t : ItemType) (l : List Char) (c : Char), k = l ++ [c] → c.isDigit = false → k ≠ k' ++ '_' :: hash t := by
    intro k k' t l c hk hc e
    rw [hk] at e
    have e := congrArg List.reverse e
    simp only [List.reverse_append, List.reverse_cons, List.append_assoc] at e
    have := (digits_split (x := []) hc us (by simp) (rev t) e).1
    exact hh.nonempty t (by simpa using this.symm)
  cases ty with
  | none =>
    cases ty' with
    | none => simp only [List.append_nil] at h; rw [h]
    | some t' => rw [List.append_nil] at h; exact absurd h (noty k k' t' l c h1 hc)
  | some t =>
    cases ty' with
    | none => rw [List.append_nil] at h; exact absurd h.symm (noty k' k t l' c' h1' hc')
    | some t' =>
      have e := congrArg List.reverse h
      simp only [List.reverse_append, List.reverse_cons, List.append_assoc] at e
      obtain ⟨e1, e2⟩ := digits_split us us (rev t) (rev t') e
      have e1 := hh.inj t t' (List.reverse_inj.1 e1)
      have e2 := List.reverse_inj.1 (List.cons.inj e2).2
      rw [e1, e2]

theorem wellNamed_keys : ∀ n ∈ allFileNames, wellNamed (n.key.2, none) = true := by decide +kernel

theorem wellNamed_file (s : Nat) (r : FileRef) : wellNamed (r.file s) = true := by
  have h := wellNamed_keys r.1 (mem_allFileNames r.1)
  have hw := wellNamed_words h
  obtain ⟨l, c, hl, hc⟩ := wellNamed_last h
  dsimp only at hl hw
  unfold wellNamed FileRef.file
  rw [Bool.and_eq_true]
  dsimp only
  split
  · constructor
    · rw [hl, ← List.append_assoc, List.getLast?_append]
      simp [hc]
    · rw [List.all_eq_true]
      intro w hw'
      have hd : ∀ c ∈ Nat.toDigits 10 s, c.isDigit = true := fun c hc => Nat.isDigit_of_mem_toDigits (b := 10) (n := s) (by omega) (by omega) hc
      rw [ratePrefix, List.append_assoc, List.singleton_append, wordsOf_append, wordsOf_digits hd, List.mem_append, List.mem_singleton] at hw'
      rcases hw' with rfl | hw'
      · refine isKeyWord_digits ?_ hd
        exact fun e => Nat.toDigits_ne_nil e
      · exact hw w hw'
  · exact ⟨by rw [hl]; simp [hc], List.all_eq_true.2 hw⟩

theorem view_other {hash : ItemType → List Char} (hh : GoodHash hash) {a b : List Char} (h : Separated a b) (dir : Directory) (e : CacheEvent)
    (he : wellNamed e.file = true) : (dir.apply hash a e).view hash b = dir.view hash b := by
  funext f
  unfold Directory.view
  cases hf : wellNamed f with
  | false => rfl
  | true =>
    cases e with
    | opened g => simp only [Directory.apply, if_neg (diskName_ne hh h.symm hf (g := g) he)]
    | closed g x => simp only [Directory.apply, if_neg (diskName_ne hh h.symm hf (g := g) he)]

theorem view_own {hash : ItemType → List Char} (hh : GoodHash hash) {a : List Char} (dir : Directory) (e : CacheEvent) (he : wellNamed e.file = true) :
    (dir.apply hash a e).view hash a = (dir.view hash a).apply e := by
  funext f
  unfold Directory.view
  cases hf : wellNamed f with
  | true =>
    have : ∀ g, wellNamed g = true → (diskName hash a f = diskName hash a g ↔ f = g) := fun g hg => ⟨diskName_inj hh hf hg, fun e => by rw [e]⟩
    cases e with
    | opened g => simp only [Directory.apply, Disk.apply, this g he, hf, if_true]
    | closed g x => simp only [Directory.apply, Disk.apply, this g he, hf, if_true]
  | false =>
    have : ∀ g, wellNamed g = true → f ≠ g := fun g hg e => by rw [e, hg] at hf; cases hf
    cases e with
    | opened g => simp only [Directory.apply, Disk.apply, this g he, hf, if_false, Bool.false_eq_true]
    | closed g x => simp only [Directory.apply, Disk.apply, this g he, hf, if_false, Bool.false_eq_true]

theorem run_wellNamed {bytes : List Nat} {s : Nat} {st : CacheStep} {P : Process} {es : List CacheEvent} (h : st.run bytes s P = some es) :
    ∀ e ∈ es, wellNamed e.file = true := by
  unfold CacheStep.run at h
  simp only [Option.bind_eq_bind, Option.bind_eq_some_iff, Option.pure_def, Option.some.injEq] at h
  obtain ⟨xs, -, ys, -, rfl⟩ := h
  intro e he
  obtain ⟨r, -, hr⟩ := storeEvents_only s _ _ e he
  rw [← hr]
  exact wellNamed_file s r

/-- a process at rest has the history of a process alone in its directory; a process at work is in the middle of a construction of such a one -/
inductive OwnState (bytes : List Nat) (P : Process) : Option Job → Prop
  | rest : CacheHistory bytes CleanDisk (Process.fresh Disk.empty) P → OwnState bytes P none
  | work {P₀ : Process} {j : Job} {Q : Process} (done : List CacheEvent) :
      CacheHistory bytes CleanDisk (Process.fresh Disk.empty) P₀ → P.disk = P₀.disk.applyAll done →
      Q = { disk := P.disk.applyAll j.todo, fileMap := P.fileMap } →
      runSteps bytes j.s (program j.t j.b) P₀ = (done ++ (j.todo ++ (runSteps bytes j.s j.rest Q).1), (runSteps bytes j.s j.rest Q).2) →
      (∀ e ∈ j.todo, wellNamed e.file = true) → OwnState bytes P (some j)

variable {ι : Type} [DecidableEq ι] {hash : ItemType → List Char} {data : ι → DataSet}

theorem reached_own (hh : GoodHash hash) (hsep : ∀ i j, i ≠ j → Separated (data i).id (data j).id) {W : Workshop ι}
    (hW : Workshop.Moves hash data CleanDisk (Workshop.start ι) W) : ∀ i, OwnState (data i).bytes (W.process hash data i) (W.job i) := by
  induction hW with
  | refl =>
    intro i
    have : (Workshop.start ι).process hash data i = Process.fresh Disk.empty := by
      unfold Workshop.process Process.fresh
      congr 1
      funext f
      simp [Workshop.start, Directory.view, Disk.empty]
    rw [this]
    exact .rest .start
  | @step W W' _ hm ih =>
    intro k
    have hk := ih k
    cases hm with
    | begin i t b s hi =>
      by_cases e : k = i
      · subst e
        rw [hi] at hk
        cases hk with
        | rest h =>
          dsimp only [Workshop.process]
          rw [if_pos rfl]
          exact .work [] h rfl rfl rfl (by simp)
      · dsimp only [Workshop.process]
        rw [if_neg e]
        exact hk
    | skip i t b s st rest hi hg =>
      by_cases e : k = i
      · subst e
        rw [hi] at hk
        cases hk with
        | work done h1 h2 h3 h4 h5 =>
          dsimp only [Workshop.process] at h2 ⊢
          rw [if_pos rfl]
          subst h3
          refine .work done h1 h2 rfl ?_ (by simp)
          dsimp only at h4 ⊢
          rw [runSteps_cons] at h4
          rw [if_pos (by exact hg)] at h4
          exact h4
      · dsimp only [Workshop.process]
        rw [if_neg e]
        exact hk
    | enter i t b s st rest es hi hg hr =>
      by_cases e : k = i
      · subst e
        rw [hi] at hk
        cases hk with
        | work done h1 h2 h3 h4 h5 =>
          dsimp only [Workshop.process] at h2 ⊢
          rw [if_pos rfl, if_pos rfl]
          subst h3
          refine .work done h1 h2 rfl ?_ (run_wellNamed hr)
          dsimp only at h4 ⊢
          rw [runSteps_cons] at h4
          rw [if_neg (by rw [show ({ disk := Disk.applyAll (W.process hash data k).disk [], fileMap := (W.process hash data k).fileMap } : Process) = W.process hash data k from rfl, hg]; simp)] at h4
          rw [show ({ disk := Disk.applyAll (W.process hash data k).disk [], fileMap := (W.process hash data k).fileMap } : Process) = W.process hash data k from rfl, hr] at h4
          exact h4
      · dsimp only [Workshop.process]
        rw [if_neg e, if_neg e]
        exact hk
    | store i t b s e es rest hi =>
      by_cases he : k = i
      · subst he
        rw [hi] at hk
        cases hk with
        | work done h1 h2 h3 h4 h5 =>
          dsimp only [Workshop.process] at h2 ⊢
          rw [if_pos rfl]
          have hv := view_own hh (a := (data k).id) W.dir e (h5 e List.mem_cons_self)
          subst h3
          refine .work (done ++ [e]) h1 ?_ rfl ?_ (fun e' he' => h5 e' (List.mem_cons_of_mem _ he'))
          · dsimp only
            rw [hv, h2, applyAll_append]; rfl
          · dsimp only at h4 ⊢
            rw [hv]
            rw [h4, List.append_assoc]
            rfl
      · dsimp only [Workshop.process]
        have hi' := ih i
        rw [hi] at hi'
        cases hi' with
        | work done h1 h2 h3 h4 h5 =>
          rw [if_neg he, view_other hh (hsep i k (fun h => he h.symm)) W.dir e (h5 e List.mem_cons_self)]
          exact hk
    | finish i t b s hi =>
      by_cases e : k = i
      · subst e
        rw [hi] at hk
        cases hk with
        | work done h1 h2 h3 h4 h5 =>
          dsimp only [Workshop.process] at h2 ⊢
          rw [if_pos rfl]
          subst h3
          refine .rest (.construct t b s h1 ?_)
          unfold constructIn
          dsimp only at h4
          rw [h4]
          rfl
      · dsimp only [Workshop.process]
        rw [if_neg e]
        exact hk
    | stop i hok =>
      by_cases e : k = i
      · subst e
        dsimp only [Workshop.process]
        rw [if_pos rfl, if_pos rfl]
        cases hj : W.job k with
        | none =>
          rw [hj] at hk
          cases hk with
          | rest h => exact .rest h.restart
        | some j =>
          rw [hj] at hk
          have hc := hok (by rw [hj]; simp)
          cases hk with
          | @work P₀ _ Q done h1 h2 h3 h4 h5 =>
            dsimp only [Workshop.process] at h2
            have ht : (constructEvents (data k).bytes j.t j.b j.s P₀).take done.length = done := by
              unfold constructEvents
              rw [h4]
              simp
            have := CacheHistory.crash j.t j.b j.s done.length h1 (by rw [ht, ← h2]; exact hc)
            rw [ht, ← h2] at this
            exact .rest this
      · dsimp only [Workshop.process]
        rw [if_neg e, if_neg e]
        exact hk

end Sri
