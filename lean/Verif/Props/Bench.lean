import Verif.Proofs.Bench
import Verif.Proofs.Keys
import Verif.Props.Base64
import Verif.Props.Factory
/-! # C62 and C63: patterns and reports of the benchmarks -/
namespace Sri
set_option autoImplicit false

/-! ## C62: reading a file of patterns -/

/-- C62, every file is a sequence of lines; which makes the following about every file -/
theorem c62_lines (file : List Nat) : ∃ lines, IsLines file lines :=
  let ⟨lines, _, h⟩ := Bench.exists_lines file
  ⟨lines, h⟩

/-- C62, plain patterns: exactly the lines that are not empty, in their order -/
theorem c62_plain (file : List Nat) (lines : List (List Nat)) (h : IsLines file lines) :
    Bench.readPatterns (some file) "PLAIN".toList = .patterns ((lines.filter (fun l => !l.isEmpty)).map (fun l => ⟨l, l⟩)) := by
  rw [Bench.readPatterns_eq h (show Bench.toPatternCode "PLAIN".toList = some .plain from by decide), Bench.ofLines_plain]

/-- C62, base64: a file with the texts of strings, one on each line, in any alphabet, gives the strings that are not empty -/
theorem c62_base64_texts (ps : List (Bool × List Nat)) (hb : ∀ p ∈ ps, IsBytes p.2) (file : List Nat)
    (h : file = List.intercalate ['\n'.toNat] (ps.map (fun p => base64Text p.1 p.2))) :
    Bench.readPatterns (some file) "BASE64".toList = .patterns ((ps.filter (fun p => !p.2.isEmpty)).map (fun p => ⟨base64Text p.1 p.2, p.2⟩)) := by
  have hl : IsLines file (ps.map (fun p => base64Text p.1 p.2)) := by
    refine ⟨?_, h⟩
    intro l hl
    obtain ⟨p, hp, rfl⟩ := List.mem_map.mp hl
    intro hc
    rw [← Base64.text_pad p.1 p.2 (hb p hp)] at hc
    exact Base64.text_noNewline p.1 p.2 (hb p hp) _ hc rfl
  rw [Bench.readPatterns_eq hl (show Bench.toPatternCode "BASE64".toList = some .base64 from by decide), Bench.ofLines_texts ps hb]

/-- C62, base64, any file: the program ends with an exception iff some line that is not empty is no (loose) base64; otherwise there is one
    pattern for each line that is not empty, the string that the line decodes to -/
theorem c62_base64 (file : List Nat) (lines : List (List Nat)) (h : IsLines file lines) :
    (Bench.readPatterns (some file) "BASE64".toList = .exception ↔ ∃ l ∈ lines, l ≠ [] ∧ ¬ LooseBase64 l) ∧
    ((∀ l ∈ lines, l ≠ [] → LooseBase64 l) → ∃ ps, Bench.readPatterns (some file) "BASE64".toList = .patterns ps ∧
      ps.map (·.encoded) = lines.filter (fun l => !l.isEmpty) ∧ ∀ p ∈ ps, Base64.decode p.encoded false = some p.decoded) := by
  rw [Bench.readPatterns_eq h (show Bench.toPatternCode "BASE64".toList = some .base64 from by decide)]
  have hl := Bench.ofLines_base64 lines
  cases ho : Bench.ofLines .base64 lines with
  | none =>
    rw [ho] at hl
    refine ⟨⟨fun _ => hl, fun _ => rfl⟩, ?_⟩
    intro hall
    obtain ⟨l, h1, h2, h3⟩ := hl
    exact absurd (hall l h1 h2) h3
  | some ps =>
    rw [ho] at hl
    refine ⟨⟨(fun h => nomatch h), ?_⟩, fun _ => ⟨ps, rfl, hl.1, fun p hp => (hl.2 p hp).2⟩⟩
    rintro ⟨l, h1, h2, h3⟩
    exfalso
    have : l ∈ ps.map (·.encoded) := by
      rw [hl.1, List.mem_filter]
      refine ⟨h1, ?_⟩
      cases l with
      | nil => exact absurd rfl h2
      | cons _ _ => rfl
    obtain ⟨p, hp, rfl⟩ := List.mem_map.mp this
    exact h3 (hl.2 p hp).1

/-- C62, no query with the empty pattern comes out of a file, whatever it contains (compare C15) -/
theorem c62_never_empty (file : Option (List Nat)) (code : List Char) (ps : List Bench.Pattern) (h : Bench.readPatterns file code = .patterns ps) :
    ∀ p ∈ ps, p.decoded ≠ [] := by
  cases file with
  | none => cases h
  | some file =>
    obtain ⟨lines, hl⟩ := c62_lines file
    cases hc : Bench.toPatternCode code with
    | none =>
      unfold Bench.readPatterns at h
      simp only [hc, Option.bind_eq_bind, Option.bind_none] at h
      cases h
    | some c =>
      rw [Bench.readPatterns_eq hl hc] at h
      cases ho : Bench.ofLines c lines with
      | none => rw [ho] at h; cases h
      | some l =>
        rw [ho] at h
        cases h
        exact Bench.ofLines_ne c lines _ ho

/-- C62, errors: a file that cannot be opened ends the program with status 3, an unknown code with an exception, before anything is read -/
theorem c62_errors (code : List Char) (file : List Nat) :
    Bench.readPatterns none code = .exit 3 ∧
    (code ≠ "PLAIN".toList → code ≠ "BASE64".toList → Bench.readPatterns (some file) code = .exception) := by
  refine ⟨rfl, fun h1 h2 => ?_⟩
  unfold Bench.readPatterns Bench.toPatternCode
  simp only [if_neg h1, if_neg h2, Option.bind_eq_bind, Option.bind_none]

-- a file with an empty line, without a newline at the end
example : IsLines (bytesOf "ab\n\ncd") [bytesOf "ab", [], bytesOf "cd"] := by unfold IsLines; decide
example : Bench.readPatterns (some (bytesOf "ab\n\ncd\n")) "PLAIN".toList =
    .patterns [⟨bytesOf "ab", bytesOf "ab"⟩, ⟨bytesOf "cd", bytesOf "cd"⟩] := by decide +kernel
example : ∀ p ∈ [(false, [102, 111, 111, 98]), (true, []), (true, [251, 255])], IsBytes p.2 := by unfold IsBytes; decide
example : Bench.readPatterns (some (bytesOf "Zm9vYg==\n\n-_8.\n")) "BASE64".toList =
    .patterns [⟨bytesOf "Zm9vYg==", [102, 111, 111, 98]⟩, ⟨bytesOf "-_8.", [251, 255]⟩] := by decide +kernel
example : Bench.readPatterns (some (bytesOf "Zm9vYg==\n!")) "BASE64".toList = .exception := by decide +kernel

/-! ## C63: reports -/

/-- the report of a benchmark on the patterns `ps` (line, string) over the text `T` -/
def ReportOK (T sa : List Nat) (ps : List (List Nat × List Nat)) (kind : Bench.Kind) (r : Bench.Report) : Prop :=
  r.counters.collectionSize = T.length ∧ r.counters.patterns = ps.length ∧ r.counters.occurrences = totalOccurrences T ps ∧
  match kind with
  | .macroLocate => r.file = none
  | .queryCount => r.file = none
  | .printLocate => r.file = some (locateReport T ps)
  | .printCount => ∃ ivs, List.Forall₂ (fun p iv => IsInterval p.2 T sa iv.1 iv.2) ps ivs ∧ r.file = some (countReport T ps ivs)

attribute [local irreducible] W64 in
theorem perform_ok {T sa : List Nat} {q : Queries} {o : List Nat → List Nat} (hq : Exact q.count q.locate T sa o) (ho : ∀ l, (o l).Perm l)
    {ps : List Bench.Pattern} (hp : ∀ p ∈ ps, IsPattern p.decoded T) {iters : Nat} (hi : 0 < iters) (size : Nat) (kind : Bench.Kind) :
    ∃ r, Bench.perform q ps iters T.length size kind = some r ∧ ReportOK T sa (ps.map Bench.pairOf) kind r ∧ r.counters.size = size := by
  have h64 : 0 < W64 := by unfold W64; decide
  have e64 : W64 = 2 ^ 64 := by unfold W64; rfl
  have hl := hq.locateExact ho
  have hc := hq.countExact
  have htot : (0 + Bench.sumOccs T ps) % W64 = totalOccurrences T (ps.map Bench.pairOf) := by
    rw [Bench.total_eq, Nat.zero_add, e64]
  cases kind with
  | macroLocate =>
    refine ⟨⟨none, ⟨T.length, size, ps.length, totalOccurrences T (ps.map Bench.pairOf)⟩⟩, ?_, ⟨rfl, by simp, rfl, rfl⟩, rfl⟩
    unfold Bench.perform Bench.macroLocate
    rw [Bench.macroBody_eq hl ps 0 h64 hp, Bench.rounds_const _ _ _ hi, htot]
    rfl
  | queryCount =>
    refine ⟨⟨none, ⟨T.length, size, ps.length, totalOccurrences T (ps.map Bench.pairOf)⟩⟩, ?_, ⟨rfl, by simp, rfl, rfl⟩, rfl⟩
    unfold Bench.perform Bench.queryCount
    rw [Bench.countBody_eq hc ps 0 h64 hp, Bench.rounds_const _ _ _ hi, htot]
    rfl
  | printLocate =>
    refine ⟨⟨some (locateReport T (ps.map Bench.pairOf)), ⟨T.length, size, ps.length, totalOccurrences T (ps.map Bench.pairOf)⟩⟩, ?_,
      ⟨rfl, by simp, rfl, rfl⟩, rfl⟩
    unfold Bench.perform Bench.printLocate
    rw [Bench.printBody_eq hl ps [] 0 h64 hp, Bench.rounds_const _ _ _ hi, htot]
    rfl
  | printCount =>
    obtain ⟨ivs, e1, e2⟩ := Bench.printCountBody_eq hc hq.countInterval ps (Bench.lit "pattern,count,range_start,range_end" ++ Bench.lit "\n") 0 h64 hp
    refine ⟨⟨some (countReport T (ps.map Bench.pairOf) ivs), ⟨T.length, size, ps.length, totalOccurrences T (ps.map Bench.pairOf)⟩⟩, ?_,
      ⟨rfl, by simp, rfl, ivs, ?_, rfl⟩, rfl⟩
    · unfold Bench.perform Bench.printCount
      rw [e2, Bench.rounds_const _ _ _ hi, htot]
      rfl
    · rw [List.forall₂_map_left_iff]
      exact e1

/-- what a benchmark leaves, for the index and rate of its request: a report for the text, with the size of an index of this class loaded alone -/
def RunOK {α : Type} (K : Codec α) (b : BvKind) (T sa : List Nat) (C : Cache) {F : FactoryKind} (ps : List (List Nat × List Nat))
    (job : F.Request × Nat × Bench.Kind) (r : Bench.Report) : Prop :=
  ReportOK T sa ps job.2.2 r ∧ ∃ m S, Delivered K b T sa C (F.cls job.1.type) job.1.samplingSize m S ∧ r.counters.size = m.size

theorem runAll_ok {α : Type} (K : Codec α) (b : BvKind) {T sa : List Nat} (hT : IsText T) (hsa : IsSA T sa) (hlen : T.length < 2^64) {C : Cache}
    {F : FactoryKind} (hF : Function.Injective F.ord) {types : List IndexType} (hn : NoClash types) (ht : ∀ e, FactoryKind.itemsOf (F.cls e) ∈ types)
    {ps : List Bench.Pattern} (hp : ∀ p ∈ ps, IsPattern p.decoded T) :
    ∀ (jobs : List (F.Request × Nat × Bench.Kind)) (st : F.State), FactoryKind.Inv K b T sa C types st → st.n = T.length →
    (∀ j ∈ jobs, 0 < j.2.1 ∧ FactoryKind.HasFiles C b T sa (F.cls j.1.type) j.1.samplingSize) →
    ∃ rs, Bench.runAll F K b C ps jobs st = some rs ∧ List.Forall₂ (RunOK K b T sa C (ps.map Bench.pairOf)) jobs rs
  | [], st, _, _, _ => ⟨[], rfl, .nil⟩
  | (c, iters, kind) :: jobs, st, hi, hst, hC => by
    obtain ⟨m, st1, e1, e2, e3, e4, -⟩ := FactoryKind.make_ok K b hT hsa hF hn ht hi c (hC (c, iters, kind) (by simp)).2
    obtain ⟨rs, f1, f2⟩ := runAll_ok K b hT hsa hlen hF hn ht hp jobs st1 e2 (e3.trans hst) (fun x hx => hC x (by simp [hx]))
    have hd := delivered hT hsa hlen (e2.2 c m e4)
    have hq : ∃ q o, m.idx.queries st1.storage = some q ∧ Exact q.count q.locate T sa o ∧ ∀ l, (o l).Perm l := by
      revert hd
      unfold Delivered
      cases F.cls c.type with
      | some t =>
        rintro ⟨I, q, -, -, g1, -, -, g2, g3, -⟩
        refine ⟨q, _, by rw [g1]; exact g2, g3, ?_⟩
        intro l
        split
        · exact List.reverse_perm l
        · exact List.Perm.refl _
      | none =>
        rintro ⟨q, -, g1, g2, g3, -⟩
        exact ⟨q, _, by rw [g1]; exact g2, g3, fun l => List.Perm.refl _⟩
    obtain ⟨q, o, g1, g2, g3⟩ := hq
    obtain ⟨r, k1, k2, k3⟩ := perform_ok g2 g3 hp (hC (c, iters, kind) (by simp)).1 m.size kind
    refine ⟨r :: rs, ?_, .cons ⟨k2, m, st1.storage, hd, k3⟩ f2⟩
    simp only [Bench.runAll, Bench.run, e1, g1, Option.bind_eq_bind, Option.bind_some, Option.pure_def, FactoryKind.State.sizeSequence, e3.trans hst, k1, f1]

/-- **C63**, benchmarks of sr-index: a file of patterns, one on each line, over the characters of the text; any sequence of benchmarks, with any
    index types, rates and numbers of rounds (at least one), on a cache with the files of the indexes. The file is read and every benchmark
    ends; every report is the one that the text determines, whatever the index, the rate, the rounds and the other benchmarks. -/
theorem c63_sr_index {α : Type} (K : Codec α) (b : BvKind) (T sa : List Nat) (hT : IsText T) (hsa : IsSA T sa) (hlen : T.length < 2^64) (C : Cache)
    (file : List Nat) (lines : List (List Nat)) (hfile : IsLines file lines) (hlines : ∀ l ∈ lines, l ≠ [] → IsPattern l T)
    (jobs : List (riFactory.Request × Nat × Bench.Kind)) (hk : ∀ j ∈ jobs, 0 < j.2.1)
    (hC : ∀ j ∈ jobs, ∀ t, riFactory.cls j.1.type = some t → C.HasIndex t b T sa j.1.samplingSize) :
    ∃ ps rs, Bench.readPatterns (some file) "PLAIN".toList = .patterns ps ∧
      Bench.runAll riFactory K b C ps jobs (riFactory.new (constructBWT T sa)) = some rs ∧
      List.Forall₂ (RunOK K b T sa C ((lines.filter (fun l => !l.isEmpty)).map (fun l => (l, l)))) jobs rs := by
  have hp : ∀ p ∈ (lines.filter (fun l => !l.isEmpty)).map (fun l => (⟨l, l⟩ : Bench.Pattern)), IsPattern p.decoded T := by
    intro p hp
    obtain ⟨l, hl, rfl⟩ := List.mem_map.mp hp
    rw [List.mem_filter] at hl
    exact hlines l hl.1 (by rintro rfl; exact absurd hl.2 (by simp))
  obtain ⟨rs, h1, h2⟩ := runAll_ok K b hT hsa hlen (C := C) riFactory_ord
    (types := [.rIndex, .srIndex, .srIndexValidMark, .srIndexValidArea]) (by unfold NoClash; decide) (fun e => by cases e <;> decide) hp jobs
    (riFactory.new (constructBWT T sa)) (FactoryKind.inv_new ..) (constructBWT_length hsa)
    (fun j hj => by
      refine ⟨hk j hj, ?_⟩
      have := hC j hj
      unfold FactoryKind.HasFiles
      cases hcls : riFactory.cls j.1.type with
      | some t => exact this t hcls
      | none => revert hcls; cases j.1.type <;> exact fun h => by cases h)
  refine ⟨_, rs, c62_plain file lines hfile, h1, ?_⟩
  rw [List.map_map] at h2
  exact h2

/-- **C63**, benchmarks of sr-csa -/
theorem c63_sr_csa {α : Type} (K : Codec α) (b : BvKind) (T sa : List Nat) (hT : IsText T) (hsa : IsSA T sa) (hlen : T.length < 2^64) (C : Cache)
    (file : List Nat) (lines : List (List Nat)) (hfile : IsLines file lines) (hlines : ∀ l ∈ lines, l ≠ [] → IsPattern l T)
    (jobs : List (csaFactory.Request × Nat × Bench.Kind)) (hk : ∀ j ∈ jobs, 0 < j.2.1)
    (hC : ∀ j ∈ jobs, ∀ t, csaFactory.cls j.1.type = some t → C.HasIndex t b T sa j.1.samplingSize)
    (hraw : ∀ j ∈ jobs, csaFactory.cls j.1.type = none → C.HasRaw b T sa) :
    ∃ ps rs, Bench.readPatterns (some file) "PLAIN".toList = .patterns ps ∧
      Bench.runAll csaFactory K b C ps jobs (csaFactory.new (constructBWT T sa)) = some rs ∧
      List.Forall₂ (RunOK K b T sa C ((lines.filter (fun l => !l.isEmpty)).map (fun l => (l, l)))) jobs rs := by
  have hp : ∀ p ∈ (lines.filter (fun l => !l.isEmpty)).map (fun l => (⟨l, l⟩ : Bench.Pattern)), IsPattern p.decoded T := by
    intro p hp
    obtain ⟨l, hl, rfl⟩ := List.mem_map.mp hp
    rw [List.mem_filter] at hl
    exact hlines l hl.1 (by rintro rfl; exact absurd hl.2 (by simp))
  obtain ⟨rs, h1, h2⟩ := runAll_ok K b hT hsa hlen (C := C) csaFactory_ord
    (types := [.rcsaWithBWTRun, .rcsaWithPsiRun, .srCSA, .srCSASlim, .srCSAValidMark, .srCSAValidArea, .srCSASlimValidMark, .srCSASlimValidArea,
      .srCSAWithPsiRun, .psiValidMark, .psiValidArea]) (by unfold NoClash; decide) (fun e => by cases e <;> decide) hp jobs
    (csaFactory.new (constructBWT T sa)) (FactoryKind.inv_new ..) (constructBWT_length hsa)
    (fun j hj => by
      refine ⟨hk j hj, ?_⟩
      have := hC j hj
      have h' := hraw j hj
      unfold FactoryKind.HasFiles
      cases hcls : csaFactory.cls j.1.type with
      | some t => exact this t hcls
      | none => exact h' hcls)
  refine ⟨_, rs, c62_plain file lines hfile, h1, ?_⟩
  rw [List.map_map] at h2
  exact h2

/-- C63, the micro benchmark: of any number of calls, each with any number of rounds, the j-th one queries the j-th pattern, and after the
    last pattern the first one again -/
theorem c63_micro (locate : List Nat → Option (List Nat)) (T : List Nat) (hl : LocateExact locate T) (ps : List Bench.Pattern)
    (hp : ∀ p ∈ ps, IsPattern p.decoded T) (h0 : ps ≠ []) (h31 : ps.length < 2 ^ 31) (iters : Nat) (hi : 0 < iters) (calls : Nat) :
    ∃ totals, Bench.microCalls locate ps iters calls 0 = some totals ∧ totals.length = calls ∧
      ∀ j, j < calls → ∃ p, ps[j % ps.length]? = some p ∧ totals[j]? = some (occurrences p.decoded T).length := by
  have hpos : 0 < ps.length := List.length_pos_iff.mpr h0
  have key : ∀ (k i : Nat), ∃ totals, Bench.microCalls locate ps iters k (i % ps.length) = some totals ∧ totals.length = k ∧
      ∀ j, j < k → ∃ p, ps[(i + j) % ps.length]? = some p ∧ totals[j]? = some (occurrences p.decoded T).length := by
    intro k
    induction k with
    | zero => intro i; exact ⟨[], rfl, rfl, fun j hj => absurd hj (by omega)⟩
    | succ k ih =>
      intro i
      have hlt := Nat.mod_lt i hpos
      obtain ⟨totals, e1, e2, e3⟩ := ih (i + 1)
      obtain ⟨l, f1, f2⟩ := hl ps[i % ps.length].decoded (hp _ (List.getElem_mem hlt))
      have hnext : (if i % ps.length + 1 = ps.length then 0 else i % ps.length + 1) = (i + 1) % ps.length := by
        rw [Nat.add_mod i 1]
        by_cases h : i % ps.length + 1 = ps.length
        · rw [if_pos h]
          by_cases h1 : ps.length = 1
          · rw [h1]; omega
          · rw [Nat.mod_eq_of_lt (by omega : 1 < ps.length), h, Nat.mod_self]
        · rw [if_neg h, Nat.mod_eq_of_lt (by omega : 1 < ps.length), Nat.mod_eq_of_lt (by omega : i % ps.length + 1 < ps.length)]
      refine ⟨l.length :: totals, ?_, by simp [e2], ?_⟩
      · simp only [Bench.microCalls, Bench.microLocate, List.getElem?_eq_getElem hlt, f1, Option.bind_eq_bind, Option.bind_some, Option.pure_def,
          Bench.rounds_const _ _ _ hi, assertC, show i % ps.length + 1 < 2 ^ 31 by omega, decide_true, if_true, hnext, e1]
      · intro j hj
        cases j with
        | zero => exact ⟨ps[i % ps.length], List.getElem?_eq_getElem hlt, by rw [← f2.length_eq]; rfl⟩
        | succ j =>
          obtain ⟨p, g1, g2⟩ := e3 j (by omega)
          exact ⟨p, by rw [show i + (j + 1) = i + 1 + j by omega]; exact g1, by simpa using g2⟩
  obtain ⟨totals, e1, e2, e3⟩ := key calls 0
  rw [Nat.zero_mod] at e1
  exact ⟨totals, e1, e2, fun j hj => by have := e3 j hj; rwa [Nat.zero_add] at this⟩

/-! ### Files -/

theorem printFile_sampled {n₁ n₂ : List Char} (h₁ : '/' ∉ n₁) (h₂ : '/' ∉ n₂) {r₁ r₂ : Nat}
    (h : Bench.printFile ("Print/".toList ++ n₁) true r₁ = Bench.printFile ("Print/".toList ++ n₂) true r₂) : n₁ = n₂ ∧ r₁ = r₂ := by
  have map_id : ∀ {n : List Char}, '/' ∉ n → n.map (fun c => if c = '/' then '_' else c) = n := by
    intro n hn
    rw [List.map_congr_left (g := id), List.map_id]
    intro c hc
    rw [if_neg (by rintro rfl; exact hn hc)]
    rfl
  have e : ∀ n : List Char, ((("Print/".toList ++ n).dropWhile (fun c => c != '/')).drop 1) = n := fun n => rfl
  unfold Bench.printFile at h
  simp only [e, map_id h₁, map_id h₂, if_true] at h
  have h := List.append_cancel_right h
  have h := List.append_cancel_left h
  have h : (n₁ ++ "-".toList ++ (toString r₁).toList).reverse = (n₂ ++ "-".toList ++ (toString r₂).toList).reverse := by rw [h]
  have ts : ∀ r : Nat, (toString r).toList = Nat.toDigits 10 r := by
    intro r
    show (Nat.repr r).toList = _
    unfold Nat.repr
    rw [String.toList_ofList]
  have hnot : ∀ r : Nat, '-' ∉ (Nat.toDigits 10 r).reverse := by
    intro r hr
    have := Nat.isDigit_of_mem_toDigits (b := 10) (n := r) (by omega) (by omega) (List.mem_reverse.mp hr)
    exact absurd this (by decide)
  rw [ts, ts, List.reverse_append, List.reverse_append, List.reverse_append, List.reverse_append] at h
  obtain ⟨h1, h2⟩ := split_first (c := '-') (x := n₁.reverse) (y := n₂.reverse) (hnot r₁) (hnot r₂) h
  exact ⟨List.reverse_injective h2, toDigits_inj (List.reverse_injective h1)⟩

theorem files_distinct {F : FactoryKind} (configs : List (Bench.IndexConfig F)) (hs : ∀ c ∈ configs, '/' ∉ c.name)
    (hu : ∀ c ∈ configs, c.name.head? = some (if c.hasSampling then 'S' else 'R'))
    (hnd : (configs.map (·.name)).Nodup) :
    ∀ c ∈ configs, ∀ c' ∈ configs, ∀ r r', c.file r = c'.file r' → c = c' ∧ (c.hasSampling = true → r = r') := by
  have hd : ∀ c ∈ configs, ∀ c' ∈ configs, c.name = c'.name → c = c' := fun c hc c' hc' h => List.inj_on_of_nodup_map hnd hc hc' h
  intro c hc c' hc' r r' h
  have map_id : ∀ {n : List Char}, '/' ∉ n → n.map (fun c => if c = '/' then '_' else c) = n := by
    intro n hn
    rw [List.map_congr_left (g := id), List.map_id]
    intro x hx
    rw [if_neg (by rintro rfl; exact hn hx)]
    rfl
  have e : ∀ n : List Char, ((("Print/".toList ++ n).dropWhile (fun c => c != '/')).drop 1) = n := fun n => rfl
  have eq : c.hasSampling = c'.hasSampling := by
    have h1 := hu c hc
    have h2 := hu c' hc'
    unfold Bench.IndexConfig.file Bench.printFile at h
    simp only [e, map_id (hs c hc), map_id (hs c' hc')] at h
    have h := List.append_cancel_right h
    have h := List.append_cancel_left h
    have h := congrArg List.head? h
    have ex : ∀ {x : List Char} {a : Char} (f : Bool) (y : List Char), x.head? = some a → (if f = true then x ++ "-".toList ++ y else x).head? = some a := by
      intro x a f y hx
      cases f with
      | true =>
        cases x with
        | nil => cases hx
        | cons b l => exact hx
      | false => exact hx
    rw [ex _ _ h1, ex _ _ h2] at h
    revert h
    cases c.hasSampling <;> cases c'.hasSampling <;> decide
  cases hb : c.hasSampling with
  | true =>
    unfold Bench.IndexConfig.file at h
    rw [← eq, hb] at h
    obtain ⟨h1, h2⟩ := printFile_sampled (hs c hc) (hs c' hc') h
    exact ⟨hd c hc c' hc' h1, fun _ => h2⟩
  | false =>
    unfold Bench.IndexConfig.file Bench.printFile at h
    rw [← eq, hb] at h
    simp only [e, map_id (hs c hc), map_id (hs c' hc'), Bool.false_eq_true, if_false] at h
    have h := List.append_cancel_right h
    have h := List.append_cancel_left h
    exact ⟨hd c hc c' hc' h, fun h => by cases h⟩

/-- C63, files: no two runs of the printing benchmarks, of different index types or rates, write to the same file, and a run has a rate
    exactly if its index type has one -/
theorem c63_files :
    (∀ c ∈ Bench.riConfigs, ∀ c' ∈ Bench.riConfigs, ∀ r r', c.file r = c'.file r' → c = c' ∧ (c.hasSampling = true → r = r')) ∧
    (∀ c ∈ Bench.csaConfigs, ∀ c' ∈ Bench.csaConfigs, ∀ r r', c.file r = c'.file r' → c = c' ∧ (c.hasSampling = true → r = r')) ∧
    (∀ c ∈ Bench.riConfigs, ∃ t, riFactory.cls c.type = some t ∧ t.sampled = c.hasSampling) ∧
    (∀ c ∈ Bench.csaConfigs, ∃ t, csaFactory.cls c.type = some t ∧ t.sampled = c.hasSampling) := by
  refine ⟨files_distinct _ (by decide) (by decide) (by decide), files_distinct _ (by decide) (by decide) (by decide), ?_, ?_⟩
  · intro c hc
    simp only [Bench.riConfigs, List.mem_cons, List.not_mem_nil, or_false] at hc
    rcases hc with rfl | rfl | rfl | rfl <;> exact ⟨_, rfl, rfl⟩
  · intro c hc
    simp only [Bench.csaConfigs, List.mem_cons, List.not_mem_nil, or_false] at hc
    rcases hc with rfl | rfl | rfl | rfl | rfl | rfl | rfl | rfl | rfl | rfl | rfl <;> exact ⟨_, rfl, rfl⟩

/-! ### The whole program -/

/-- the indexes of bm_locate_ri, by the names in its output -/
def riNames : List (String × IndexType) :=
  [("R-Index", .rIndex), ("SR-Index", .srIndex), ("SR-Index-VM", .srIndexValidMark), ("SR-Index-VA", .srIndexValidArea)]

/-- the indexes of bm_locate_csa, by the names in its output -/
def csaNames : List (String × IndexType) :=
  [("R-CSA-BWT-RUNS", .rcsaWithBWTRun), ("R-CSA-PSI-RUNS", .rcsaWithPsiRun), ("SR-CSA", .srCSA), ("SR-CSA-VM", .srCSAValidMark),
   ("SR-CSA-VA", .srCSAValidArea), ("SR-CSA-Slim", .srCSASlim), ("SR-CSA-Slim-VM", .srCSASlimValidMark), ("SR-CSA-Slim-VA", .srCSASlimValidArea),
   ("SR-CSA-PSI-RUNS", .srCSAWithPsiRun), ("SR-CSA-PSI-RUNS-VM", .psiValidMark), ("SR-CSA-PSI-RUNS-VA", .psiValidArea)]

/-- a run of the program: class and rate (0 if the class has none), what it does, and the file it writes -/
structure SuiteRun where
  type : IndexType
  rate : Nat
  kind : Bench.Kind
  file : Option (List Char)

/-- the runs a reader of the output expects, for the rates `rates` -/
def expectedRuns (names : List (String × IndexType)) (print : Bool) (rates : List Nat) : List SuiteRun :=
  names.flatMap (fun x =>
    let rs := if x.2.sampled then rates else [0]
    rs.map (fun r => ⟨x.2, r, .macroLocate, none⟩) ++
    (if print then rs.map (fun r => ⟨x.2, r, .printLocate,
      some ("result-".toList ++ x.1.toList ++ (if x.2.sampled then "-".toList ++ (toString r).toList else []) ++ ".txt".toList)⟩) else []))

/-- the run left the report that the text determines, under the right name, from an index of its class and rate -/
def SuiteRun.OK {α : Type} (K : Codec α) (b : BvKind) (T sa : List Nat) (C : Cache) (ps : List (List Nat × List Nat)) (e : SuiteRun)
    (o : Option (List Char) × Bench.Report) : Prop :=
  o.1 = e.file ∧ ReportOK T sa ps e.kind o.2 ∧ ∃ m S, Delivered K b T sa C (some e.type) e.rate m S ∧ o.2.counters.size = m.size

/-- a config and the entry of the names it goes with -/
def ConfigFor {F : FactoryKind} (c : Bench.IndexConfig F) (x : String × IndexType) : Prop :=
  c.name = x.1.toList ∧ F.cls c.type = some x.2 ∧ c.hasSampling = x.2.sampled ∧ '/' ∉ c.name

theorem file_eq {F : FactoryKind} {c : Bench.IndexConfig F} {x : String × IndexType} (h : ConfigFor c x) (r : Nat) :
    c.file r = "result-".toList ++ x.1.toList ++ (if x.2.sampled then "-".toList ++ (toString r).toList else []) ++ ".txt".toList := by
  obtain ⟨h1, -, h3, h4⟩ := h
  have e : ((("Print/".toList ++ c.name).dropWhile (fun c => c != '/')).drop 1) = c.name := rfl
  have hm : c.name.map (fun c => if c = '/' then '_' else c) = c.name := by
    rw [List.map_congr_left (g := id), List.map_id]
    intro d hd
    rw [if_neg (by rintro rfl; exact h4 hd)]
    rfl
  unfold Bench.IndexConfig.file Bench.printFile
  simp only [e, hm]
  rw [h3, h1]
  cases x.2.sampled <;> simp

theorem registered_expected {F : FactoryKind} (print : Bool) (lo hi : Nat) : ∀ {configs : List (Bench.IndexConfig F)} {names : List (String × IndexType)},
    List.Forall₂ ConfigFor configs names →
    List.Forall₂ (fun (x : Bench.IndexConfig F × Bench.Kind × Nat) (e : SuiteRun) => F.cls (x.1.request x.2.2).type = some e.type ∧
      (x.1.request x.2.2).samplingSize = e.rate ∧ x.2.1 = e.kind ∧
      x.1.fileOf x.2.2 x.2.1 = e.file)
      (Bench.registerAll configs print lo hi) (expectedRuns names print (Bench.rangeArgs lo hi))
  | [], [], .nil => .nil
  | c :: configs, x :: names, .cons h hs => by
    have ih := registered_expected print lo hi hs
    have hf := file_eq h
    obtain ⟨h1, h2, h3, h4⟩ := h
    have one : ∀ (k : Bench.Kind) (g : Nat → Option (List Char)), (∀ r, c.fileOf r k = g r) →
        List.Forall₂ (fun (x : Bench.IndexConfig F × Bench.Kind × Nat) (e : SuiteRun) => F.cls (x.1.request x.2.2).type = some e.type ∧
          (x.1.request x.2.2).samplingSize = e.rate ∧ x.2.1 = e.kind ∧
          x.1.fileOf x.2.2 x.2.1 = e.file)
          ((if c.hasSampling then Bench.rangeArgs lo hi else [0]).map (fun r => (c, k, r)))
          ((if x.2.sampled then Bench.rangeArgs lo hi else [0]).map (fun r => (⟨x.2, r, k, g r⟩ : SuiteRun))) := by
      intro k g hg
      rw [← h3]
      cases hs : c.hasSampling with
      | true =>
        simp only [if_true]
        rw [List.forall₂_map_left_iff, List.forall₂_map_right_iff]
        exact List.forall₂_same.mpr (fun r _ => ⟨h2, by simp [Bench.IndexConfig.request, hs], rfl, hg r⟩)
      | false =>
        simp only [Bool.false_eq_true, if_false, List.map_cons, List.map_nil]
        exact .cons ⟨h2, by simp [Bench.IndexConfig.request, hs], rfl, hg 0⟩ .nil
    unfold Bench.registerAll expectedRuns at ih ⊢
    rw [List.flatMap_cons, List.flatMap_cons]
    refine List.rel_append ?_ ih
    cases print with
    | false =>
      simp only [Bool.false_eq_true, if_false, List.flatMap_cons, List.flatMap_nil, List.append_nil]
      exact one .macroLocate (fun _ => none) (fun _ => rfl)
    | true =>
      simp only [if_true, List.flatMap_cons, List.flatMap_nil, List.append_nil]
      exact List.rel_append (one .macroLocate (fun _ => none) (fun _ => rfl)) (one .printLocate _ (fun r => congrArg some (hf r)))

theorem expectedRuns_mem {names : List (String × IndexType)} {print : Bool} {rates : List Nat} {e : SuiteRun}
    (h : e ∈ expectedRuns names print rates) : ∃ x ∈ names, x.2 = e.type ∧ e.rate ∈ (if x.2.sampled then rates else [0]) := by
  unfold expectedRuns at h
  obtain ⟨x, hx, he⟩ := List.mem_flatMap.mp h
  refine ⟨x, hx, ?_⟩
  rcases List.mem_append.mp he with he | he
  · obtain ⟨r, hr, rfl⟩ := List.mem_map.mp he
    exact ⟨rfl, hr⟩
  · cases print with
    | false => simp at he
    | true =>
      rw [if_pos rfl] at he
      obtain ⟨r, hr, rfl⟩ := List.mem_map.mp he
      exact ⟨rfl, hr⟩

theorem forall₂_left_mem {β γ : Type} {R : β → γ → Prop} {l : List β} {l' : List γ} (h : List.Forall₂ R l l') {x : β} (hx : x ∈ l) :
    ∃ y ∈ l', R x y := by
  induction h with
  | nil => cases hx
  | cons h _ ih =>
    rcases List.mem_cons.mp hx with rfl | hx
    · exact ⟨_, List.mem_cons_self, h⟩
    · obtain ⟨y, hy, h'⟩ := ih hx
      exact ⟨y, List.mem_cons_of_mem _ hy, h'⟩

theorem runSuite_of {α : Type} {K : Codec α} {b : BvKind} {T sa : List Nat} {C : Cache} {F : FactoryKind} {ps : List Bench.Pattern}
    {pairs : List (List Nat × List Nat)} {iters : Nat} {st : F.State} {runs : List (Bench.IndexConfig F × Bench.Kind × Nat)} {es : List SuiteRun}
    (he : List.Forall₂ (fun (x : Bench.IndexConfig F × Bench.Kind × Nat) (e : SuiteRun) => F.cls (x.1.request x.2.2).type = some e.type ∧
      (x.1.request x.2.2).samplingSize = e.rate ∧ x.2.1 = e.kind ∧
      x.1.fileOf x.2.2 x.2.1 = e.file) runs es)
    {rs : List Bench.Report}
    (h : Bench.runAll F K b C ps (runs.map (fun x => (x.1.request x.2.2, x.2.1.rounds iters, x.2.1))) st = some rs)
    (hr : List.Forall₂ (RunOK K b T sa C pairs)
      (runs.map (fun x => (x.1.request x.2.2, x.2.1.rounds iters, x.2.1))) rs) :
    ∃ out, Bench.runSuite F K b C ps iters runs st = some out ∧ List.Forall₂ (SuiteRun.OK K b T sa C pairs) es out := by
  refine ⟨_, by unfold Bench.runSuite; rw [h]; rfl, ?_⟩
  clear h
  rw [List.forall₂_map_left_iff] at hr
  induction he generalizing rs with
  | nil => cases hr; exact .nil
  | cons hx _ ih =>
    cases hr with
    | cons h1 h2 =>
      obtain ⟨g1, g2, g3, g4⟩ := hx
      obtain ⟨k1, m, S, k2, k3⟩ := h1
      dsimp only at k1 k2
      rw [g1, g2] at k2
      rw [g3] at k1
      exact .cons ⟨g4, k1, m, S, k2, k3⟩ (ih h2)

/-- **C63**, the whole of bm_locate_ri: a file of patterns, a range of rates, any number of rounds, and a cache with the files of the four classes at these
    rates. The program ends. Its reports are one by one those of the expected runs: for every class, and every rate of a class that has one,
    the counters are those of the text with the size of that very index, and the printed file, named after the class and the rate, is the
    report that the text determines. -/
theorem c63_program_sr_index {α : Type} (K : Codec α) (b : BvKind) (T sa : List Nat) (hT : IsText T) (hsa : IsSA T sa) (hlen : T.length < 2^64)
    (C : Cache) (file : List Nat) (lines : List (List Nat)) (hfile : IsLines file lines) (hlines : ∀ l ∈ lines, l ≠ [] → IsPattern l T)
    (print : Bool) (lo hi iters : Nat) (hk : 0 < iters)
    (hC : ∀ x ∈ riNames, ∀ r ∈ (if x.2.sampled then Bench.rangeArgs lo hi else [0]), C.HasIndex x.2 b T sa r) :
    ∃ ps out, Bench.readPatterns (some file) "PLAIN".toList = .patterns ps ∧
      Bench.runSuite riFactory K b C ps iters (Bench.registerAll Bench.riConfigs print lo hi) (riFactory.new (constructBWT T sa)) = some out ∧
      List.Forall₂ (SuiteRun.OK K b T sa C ((lines.filter (fun l => !l.isEmpty)).map (fun l => (l, l))))
        (expectedRuns riNames print (Bench.rangeArgs lo hi)) out := by
  have hcfg : List.Forall₂ ConfigFor Bench.riConfigs riNames := by
    unfold Bench.riConfigs riNames
    repeat' first | exact List.Forall₂.nil | refine List.Forall₂.cons ⟨rfl, rfl, rfl, by decide⟩ ?_
  have he := registered_expected print lo hi hcfg
  obtain ⟨ps, rs, h1, h2, h3⟩ := c63_sr_index K b T sa hT hsa hlen C file lines hfile hlines
    ((Bench.registerAll Bench.riConfigs print lo hi).map (fun x => (x.1.request x.2.2, x.2.1.rounds iters, x.2.1)))
    (fun j hj => by
      obtain ⟨x, -, rfl⟩ := List.mem_map.mp hj
      dsimp only
      unfold Bench.Kind.rounds
      split <;> omega)
    (fun j hj t ht => by
      obtain ⟨x, hx, rfl⟩ := List.mem_map.mp hj
      obtain ⟨e, he', g1, g2, -⟩ := forall₂_left_mem he hx
      obtain ⟨y, hy, hy1, hy2⟩ := expectedRuns_mem he'
      rw [ht, Option.some.injEq] at g1
      have := hC y hy _ hy2
      rw [hy1, ← g1, ← g2] at this
      exact this)
  obtain ⟨out, k1, k2⟩ := runSuite_of he h2 h3
  exact ⟨ps, out, h1, k1, k2⟩

/-- **C63**, the whole of bm_locate_csa -/
theorem c63_program_sr_csa {α : Type} (K : Codec α) (b : BvKind) (T sa : List Nat) (hT : IsText T) (hsa : IsSA T sa) (hlen : T.length < 2^64)
    (C : Cache) (file : List Nat) (lines : List (List Nat)) (hfile : IsLines file lines) (hlines : ∀ l ∈ lines, l ≠ [] → IsPattern l T)
    (print : Bool) (lo hi iters : Nat) (hk : 0 < iters)
    (hC : ∀ x ∈ csaNames, ∀ r ∈ (if x.2.sampled then Bench.rangeArgs lo hi else [0]), C.HasIndex x.2 b T sa r) :
    ∃ ps out, Bench.readPatterns (some file) "PLAIN".toList = .patterns ps ∧
      Bench.runSuite csaFactory K b C ps iters (Bench.registerAll Bench.csaConfigs print lo hi) (csaFactory.new (constructBWT T sa)) = some out ∧
      List.Forall₂ (SuiteRun.OK K b T sa C ((lines.filter (fun l => !l.isEmpty)).map (fun l => (l, l))))
        (expectedRuns csaNames print (Bench.rangeArgs lo hi)) out := by
  have hcfg : List.Forall₂ ConfigFor Bench.csaConfigs csaNames := by
    unfold Bench.csaConfigs csaNames
    repeat' first | exact List.Forall₂.nil | refine List.Forall₂.cons ⟨rfl, rfl, rfl, by decide⟩ ?_
  have he := registered_expected print lo hi hcfg
  obtain ⟨ps, rs, h1, h2, h3⟩ := c63_sr_csa K b T sa hT hsa hlen C file lines hfile hlines
    ((Bench.registerAll Bench.csaConfigs print lo hi).map (fun x => (x.1.request x.2.2, x.2.1.rounds iters, x.2.1)))
    (fun j hj => by
      obtain ⟨x, -, rfl⟩ := List.mem_map.mp hj
      dsimp only
      unfold Bench.Kind.rounds
      split <;> omega)
    (fun j hj t ht => by
      obtain ⟨x, hx, rfl⟩ := List.mem_map.mp hj
      obtain ⟨e, he', g1, g2, -⟩ := forall₂_left_mem he hx
      obtain ⟨y, hy, hy1, hy2⟩ := expectedRuns_mem he'
      rw [ht, Option.some.injEq] at g1
      have := hC y hy _ hy2
      rw [hy1, ← g1, ← g2] at this
      exact this)
    (fun j hj ht => by
      obtain ⟨x, hx, rfl⟩ := List.mem_map.mp hj
      obtain ⟨e, -, g1, -⟩ := forall₂_left_mem he hx
      rw [ht] at g1
      cases g1)
  obtain ⟨out, k1, k2⟩ := runSuite_of he h2 h3
  exact ⟨ps, out, h1, k1, k2⟩

/-! ### The hypotheses are met -/

example : Bench.rangeArgs 4 64 = [4, 8, 16, 32, 64] ∧ Bench.rangeArgs 3 20 = [3, 4, 8, 16, 20] ∧ Bench.rangeArgs 2 2 = [2] := by decide +kernel

/-- the indexes of bm_locate_ri at the rates 2 and 3 -/
def exSuite : List (IndexType × Nat) :=
  [(.rIndex, 0), (.srIndex, 2), (.srIndex, 3), (.srIndexValidMark, 2), (.srIndexValidMark, 3), (.srIndexValidArea, 2), (.srIndexValidArea, 3)]

-- the files that `c63_program_sr_index` asks for
example : ∀ x ∈ riNames, ∀ r ∈ (if x.2.sampled then Bench.rangeArgs 2 3 else [0]), (sharedCache .sd exText exSA exSuite).HasIndex x.2 .sd exText exSA r := by
  have h : ∀ x ∈ exSuite, ∃ h : (partsOf x.1 exText exSA x.2).isSome, ∀ f ∈ indexFiles x.1 .sd x.2 ((partsOf x.1 exText exSA x.2).get h),
      sharedCache .sd exText exSA exSuite f.1.1 f.1.2 = some f.2 := by decide +kernel
  have hm : ∀ x ∈ riNames, ∀ r ∈ (if x.2.sampled then Bench.rangeArgs 2 3 else [0]), (x.2, r) ∈ exSuite := by decide +kernel
  intro x hx r hr
  obtain ⟨h1, h2⟩ := h (x.2, r) (hm x hx r hr)
  exact ⟨_, by simp, h2⟩

/-- the indexes of bm_locate_csa at the rate 2 -/
def exSuiteCsa : List (IndexType × Nat) :=
  [(.rcsaWithBWTRun, 0), (.rcsaWithPsiRun, 0)] ++
    [IndexType.srCSA, .srCSAValidMark, .srCSAValidArea, .srCSASlim, .srCSASlimValidMark, .srCSASlimValidArea, .srCSAWithPsiRun,
      .psiValidMark, .psiValidArea].map (fun t => (t, 2))

-- and the ones that `c63_program_sr_csa` asks for
example : ∀ x ∈ csaNames, ∀ r ∈ (if x.2.sampled then Bench.rangeArgs 2 2 else [0]), (sharedCache .sd exText exSA exSuiteCsa).HasIndex x.2 .sd exText exSA r := by
  have h : ∀ x ∈ exSuiteCsa, ∃ h : (partsOf x.1 exText exSA x.2).isSome, ∀ f ∈ indexFiles x.1 .sd x.2 ((partsOf x.1 exText exSA x.2).get h),
      sharedCache .sd exText exSA exSuiteCsa f.1.1 f.1.2 = some f.2 := by decide +kernel
  have hm : ∀ x ∈ csaNames, ∀ r ∈ (if x.2.sampled then Bench.rangeArgs 2 2 else [0]), (x.2, r) ∈ exSuiteCsa := by decide +kernel
  intro x hx r hr
  obtain ⟨h1, h2⟩ := h (x.2, r) (hm x hx r hr)
  exact ⟨_, by simp, h2⟩

example : (expectedRuns riNames true [2, 3]).map (·.file) = [none, some "result-R-Index.txt".toList, none, none, some "result-SR-Index-2.txt".toList,
    some "result-SR-Index-3.txt".toList, none, none, some "result-SR-Index-VM-2.txt".toList, some "result-SR-Index-VM-3.txt".toList, none, none,
    some "result-SR-Index-VA-2.txt".toList, some "result-SR-Index-VA-3.txt".toList] := by decide +kernel

/-- a file with two patterns over the characters of `exText` (bytes 1, 2, 3) and an empty line -/
def exLines : List (List Nat) := [[1, 2], [], [3]]

example : IsLines [1, 2, 10, 10, 3] exLines ∧ ∀ l ∈ exLines, l ≠ [] → IsPattern l exText := by unfold IsLines IsPattern; decide

-- the benchmarks on the requests of the example of C60, each of three rounds
example : (∀ j ∈ exRequests.map (fun c => (c, 3, Bench.Kind.printLocate)), 0 < j.2.1) ∧
    (∀ j ∈ exRequests.map (fun c => (c, 3, Bench.Kind.printLocate)), ∀ t, csaFactory.cls j.1.type = some t →
      exFactoryCache.HasIndex t .sd exText exSA j.1.samplingSize) ∧
    (∀ j ∈ exRequests.map (fun c => (c, 3, Bench.Kind.printLocate)), csaFactory.cls j.1.type = none → exFactoryCache.HasRaw .sd exText exSA) := by
  refine ⟨?_, ?_, ?_⟩
  · intro j hj
    obtain ⟨c, -, rfl⟩ := List.mem_map.mp hj
    exact Nat.succ_pos 2
  · intro j hj
    obtain ⟨c, hc, rfl⟩ := List.mem_map.mp hj
    exact exRequests_files.1 c hc
  · intro j hj
    obtain ⟨c, hc, rfl⟩ := List.mem_map.mp hj
    exact exRequests_files.2 c hc

example : ∀ j ∈ exRiRequests.map (fun c => (c, 1, Bench.Kind.printCount)), ∀ t, riFactory.cls j.1.type = some t →
    (sharedCache .sd exText exSA [(.rIndex, 0), (.srIndexValidArea, 2), (.srIndex, 3)]).HasIndex t .sd exText exSA j.1.samplingSize := by
  intro j hj
  obtain ⟨c, hc, rfl⟩ := List.mem_map.mp hj
  exact exRiRequests_files c hc

-- the reports, spelled out: "ab" occurs in "abcabcababc" at 0, 3, 6 and 8
example : locateReport (bytesOf "abcabcababc" ++ [0]) [(bytesOf "ab", bytesOf "ab"), (bytesOf "bb", bytesOf "bb")] =
    bytesOf "ab\n  0\n  3\n  6\n  8\nbb\n" := by decide +kernel
example : countReport (bytesOf "abcabcababc" ++ [0]) [(bytesOf "ab", bytesOf "ab")] [(1, 5)] =
    bytesOf "pattern,count,range_start,range_end\n\"ab\",4,1,5\n" := by decide +kernel
-- and the model's loops on a given answer
example : Bench.printLocate (fun _ => some [8, 3, 0, 6]) [⟨bytesOf "YWI=", bytesOf "ab"⟩] 2 = some (bytesOf "YWI=\n  0\n  3\n  6\n  8\n", 4) := by
  decide +kernel
-- a run of BM_MicroLocate with 2 patterns and 5 calls
example : Bench.microCalls (fun p => some p) [⟨[], [7]⟩, ⟨[], [7, 7]⟩] 3 5 0 = some [1, 2, 1, 2, 1] := by decide +kernel
example : Bench.IndexConfig.file (F := riFactory) ⟨"SR-Index-VM".toList, RiEnum.srIndexVM, true⟩ 16 = "result-SR-Index-VM-16.txt".toList := by decide +kernel

end Sri
