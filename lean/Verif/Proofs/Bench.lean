import Mathlib.Data.List.Basic
import Mathlib.Data.List.Sort
import Verif.SpecText
import Verif.Model.Bench
import Verif.Proofs.Base64
/-! # The query benchmarks -/
namespace Sri
set_option autoImplicit false
namespace Bench

/-! ## Lines -/

/-- what the loop of getline sees: a file as lines -/
theorem intercalate_cons (c : Nat) (l m : List Nat) (ls : List (List Nat)) :
    List.intercalate [c] (l :: m :: ls) = l ++ c :: List.intercalate [c] (m :: ls) := by simp [List.intercalate]

theorem intercalate_one (c : Nat) (l : List Nat) : List.intercalate [c] [l] = l := by simp [List.intercalate]

theorem takeWhile_line {l r : List Nat} (h : '\n'.toNat ∉ l) :
    (l ++ '\n'.toNat :: r).takeWhile (fun c => c != '\n'.toNat) = l ∧ (l ++ '\n'.toNat :: r).dropWhile (fun c => c != '\n'.toNat) = '\n'.toNat :: r := by
  have h' : ∀ x ∈ l, (x != '\n'.toNat) = true := by
    intro x hx
    simp only [bne_iff_ne, ne_eq]
    rintro rfl
    exact h hx
  constructor
  · rw [List.takeWhile_append_of_pos h', List.takeWhile_cons_of_neg (by simp), List.append_nil]
  · rw [List.dropWhile_append_of_pos h', List.dropWhile_cons_of_neg (by simp)]

theorem takeWhile_last {l : List Nat} (h : '\n'.toNat ∉ l) :
    l.takeWhile (fun c => c != '\n'.toNat) = l ∧ l.dropWhile (fun c => c != '\n'.toNat) = [] := by
  have h' : ∀ x ∈ l, (x != '\n'.toNat) = true := by
    intro x hx
    simp only [bne_iff_ne, ne_eq]
    rintro rfl
    exact h hx
  have e1 := List.takeWhile_append_of_pos (l₂ := []) h'
  have e2 := List.dropWhile_append_of_pos (l₂ := []) h'
  simpa using And.intro e1 e2

/-- the patterns that ReadPatterns makes of lines, one after another -/
def ofLines (code : PatternCode) : List (List Nat) → Option (List Pattern)
  | [] => some []
  | l :: ls =>
    if l.isEmpty then ofLines code ls
    else do
      let d ← decodeLine code l
      let r ← ofLines code ls
      return ⟨l, d⟩ :: r

theorem readLoop_eq (code : PatternCode) :
    ∀ (fuel : Nat) (lines : List (List Nat)) (acc : List Pattern), lines ≠ [] → (∀ l ∈ lines, '\n'.toNat ∉ l) →
    (List.intercalate ['\n'.toNat] lines).length < fuel →
    readLoop code fuel (List.intercalate ['\n'.toNat] lines) acc = (ofLines code lines).map (acc ++ ·)
  | 0, _, _, _, _, h => by omega
  | fuel + 1, [], _, h0, _, _ => absurd rfl h0
  | fuel + 1, [l], acc, _, hl, hf => by
    rw [intercalate_one] at hf ⊢
    have hl' := takeWhile_last (hl l (by simp))
    unfold readLoop getline
    by_cases h0 : l = []
    · subst h0
      simp [ofLines]
    · have hne : l.isEmpty = false := by cases l <;> simp_all
      have hend : ∀ acc', readLoop code fuel [] acc' = some acc' := by
        intro acc'
        cases fuel with
        | zero =>
          have : 0 < l.length := List.length_pos_iff.mpr h0
          omega
        | succ f => rfl
      simp only [if_neg h0, hl'.1, hl'.2, hne, Bool.false_eq_true, if_false, List.drop_nil, ofLines, Option.bind_eq_bind, Option.pure_def, hend]
      cases decodeLine code l <;> simp
  | fuel + 1, l :: m :: ls, acc, _, hl, hf => by
    rw [intercalate_cons] at hf ⊢
    have hl' := takeWhile_line (r := List.intercalate ['\n'.toNat] (m :: ls)) (hl l (by simp))
    have ih := fun acc' => readLoop_eq code fuel (m :: ls) acc' (by simp) (fun x hx => hl x (List.mem_cons_of_mem _ hx)) (by
      simp only [List.length_append, List.length_cons] at hf
      omega)
    unfold readLoop getline
    simp only [if_neg (show ¬ l ++ '\n'.toNat :: List.intercalate ['\n'.toNat] (m :: ls) = [] by simp), hl'.1, hl'.2, List.drop_one, List.tail_cons, ih]
    rw [show ofLines code (l :: m :: ls) = if l.isEmpty then ofLines code (m :: ls) else do
      let d ← decodeLine code l
      let r ← ofLines code (m :: ls)
      return ⟨l, d⟩ :: r from rfl]
    split
    · rfl
    · cases decodeLine code l with
      | none => rfl
      | some d =>
        simp only [Option.bind_eq_bind, Option.bind_some, Option.pure_def]
        cases ofLines code (m :: ls) <;> simp

/-- every file has lines -/
theorem exists_lines : ∀ file : List Nat, ∃ lines, lines ≠ [] ∧ IsLines file lines
  | [] => ⟨[[]], by simp, by simp, by simp [List.intercalate]⟩
  | c :: t => by
    obtain ⟨lines, h0, h1, h2⟩ := exists_lines t
    obtain ⟨l, ls, rfl⟩ := List.exists_cons_of_ne_nil h0
    by_cases hc : c = '\n'.toNat
    · refine ⟨[] :: l :: ls, by simp, ?_, ?_⟩
      · intro x hx
        rcases List.mem_cons.mp hx with rfl | hx
        · simp
        · exact h1 x hx
      · rw [intercalate_cons, hc, ← h2]
        rfl
    · refine ⟨(c :: l) :: ls, by simp, ?_, ?_⟩
      · intro x hx
        rcases List.mem_cons.mp hx with rfl | hx
        · intro hm
          rcases List.mem_cons.mp hm with h | h
          · exact hc h.symm
          · exact h1 l (by simp) h
        · exact h1 x (by simp [hx])
      · cases ls with
        | nil => rw [intercalate_one] at h2 ⊢; rw [h2]
        | cons m ls => rw [intercalate_cons] at h2 ⊢; rw [h2]; rfl

theorem readPatterns_eq {file : List Nat} {lines : List (List Nat)} (h : IsLines file lines) {name : List Char} {code : PatternCode}
    (hc : toPatternCode name = some code) :
    readPatterns (some file) name = match ofLines code lines with
      | none => .exception
      | some l => .patterns l := by
  unfold readPatterns
  simp only [hc, Option.bind_eq_bind, Option.bind_some]
  by_cases h0 : lines = []
  · subst h0
    have : file = [] := by rw [h.2]; simp [List.intercalate]
    subst this
    simp [ofLines, readLoop, getline]
  · have := readLoop_eq code (file.length + 1) lines [] h0 h.1 (by rw [← h.2]; omega)
    rw [← h.2] at this
    rw [this]
    cases ofLines code lines <;> simp

theorem ofLines_plain : ∀ lines : List (List Nat), ofLines .plain lines = some ((lines.filter (fun l => !l.isEmpty)).map (fun l => ⟨l, l⟩))
  | [] => rfl
  | l :: ls => by
    have ih := ofLines_plain ls
    rw [ofLines]
    cases hl : l.isEmpty <;> simp [hl, ih, decodeLine]

theorem ofLines_texts : ∀ ps : List (Bool × List Nat), (∀ p ∈ ps, IsBytes p.2) →
    ofLines .base64 (ps.map (fun p => base64Text p.1 p.2)) = some ((ps.filter (fun p => !p.2.isEmpty)).map (fun p => ⟨base64Text p.1 p.2, p.2⟩))
  | [], _ => rfl
  | p :: ps, h => by
    have ih := ofLines_texts ps (fun x hx => h x (by simp [hx]))
    have hb := h p (by simp)
    have hd : Base64.decode (base64Text p.1 p.2) false = some p.2 := by
      rw [← Base64.text_pad p.1 p.2 hb, Base64.decode_eq, Base64.groups_text p.1 true p.2 hb]
    rw [List.map_cons, ofLines]
    by_cases h0 : p.2 = []
    · have e : base64Text p.1 [] = [] := rfl
      simp [e, h0, ih]
    · have e : (base64Text p.1 p.2).isEmpty = false := by
        cases he : base64Text p.1 p.2 with
        | nil =>
          rw [he] at hd
          exact absurd (Option.some.inj hd).symm h0
        | cons _ _ => rfl
      have e' : p.2.isEmpty = false := by cases hp : p.2 <;> simp_all
      simp only [e, Bool.false_eq_true, if_false, decodeLine, hd, ih, Option.bind_eq_bind, Option.bind_some, Option.pure_def,
        List.filter_cons, e', Bool.not_false, if_true, List.map_cons]

theorem ofLines_base64 : ∀ lines : List (List Nat),
    match ofLines .base64 lines with
    | none => ∃ l ∈ lines, l ≠ [] ∧ ¬ LooseBase64 l
    | some ps => ps.map (·.encoded) = lines.filter (fun l => !l.isEmpty) ∧ ∀ p ∈ ps, LooseBase64 p.encoded ∧ Base64.decode p.encoded false = some p.decoded
  | [] => ⟨rfl, by simp⟩
  | l :: ls => by
    have ih := ofLines_base64 ls
    rw [ofLines]
    cases hl : l.isEmpty with
    | true =>
      simp only [if_true, List.filter_cons, hl, Bool.not_true, Bool.false_eq_true, if_false]
      revert ih
      cases ofLines .base64 ls with
      | none => rintro ⟨x, hx, h⟩; exact ⟨x, by simp [hx], h⟩
      | some ps => exact id
    | false =>
      have hne : l ≠ [] := by rintro rfl; cases hl
      simp only [Bool.false_eq_true, if_false, decodeLine, Option.bind_eq_bind, Option.pure_def, List.filter_cons, hl, Bool.not_false, if_true]
      have hacc := Base64.groups_isSome l
      rw [← Base64.decode_eq] at hacc
      cases hd : Base64.decode l false with
      | none =>
        rw [hd] at hacc
        exact ⟨l, by simp, hne, fun h => by simpa using hacc.mpr h⟩
      | some d =>
        rw [hd] at hacc
        revert ih
        cases ofLines .base64 ls with
        | none => rintro ⟨x, hx, h⟩; exact ⟨x, by simp [hx], h⟩
        | some ps =>
          rintro ⟨h1, h2⟩
          refine ⟨by simp [h1], ?_⟩
          intro p hp
          rcases List.mem_cons.mp hp with rfl | hp
          · exact ⟨hacc.mp rfl, hd⟩
          · exact h2 p hp

theorem groups_ne {e s : List Nat} (h : Base64.groups e = some s) (h0 : e ≠ []) : s ≠ [] := by
  rintro rfl
  revert h
  match e, h0 with
  | [], h0 => exact absurd rfl h0
  | [_], _ => simp [Base64.groups]
  | [a, b], _ =>
    simp only [Base64.groups, Option.bind_eq_bind, Option.pure_def]
    cases Base64.posOfChar b <;> cases Base64.posOfChar a <;> simp
  | [a, b, c], _ =>
    simp only [Base64.groups, Option.bind_eq_bind, Option.pure_def]
    cases Base64.posOfChar b <;> cases Base64.posOfChar a <;> cases Base64.isPad c <;> cases Base64.posOfChar c <;> simp
  | a :: b :: c :: d :: t, _ =>
    simp only [Base64.groups, Option.bind_eq_bind, Option.pure_def]
    cases Base64.posOfChar b <;> cases Base64.posOfChar a <;> cases Base64.isPad c <;> cases Base64.posOfChar c <;> cases Base64.isPad d <;>
      cases Base64.posOfChar d <;> cases Base64.groups t <;> simp

theorem ofLines_ne (code : PatternCode) : ∀ (lines : List (List Nat)) (ps : List Pattern), ofLines code lines = some ps →
    ∀ p ∈ ps, p.decoded ≠ []
  | [], ps, h => by
    simp only [ofLines, Option.some.injEq] at h
    subst h
    simp
  | l :: ls, ps, h => by
    rw [ofLines] at h
    cases hl : l.isEmpty with
    | true =>
      rw [hl] at h
      exact ofLines_ne code ls ps h
    | false =>
      have hne : l ≠ [] := by rintro rfl; cases hl
      simp only [hl, Bool.false_eq_true, if_false, Option.bind_eq_bind, Option.bind_eq_some_iff, Option.pure_def, Option.some.injEq] at h
      obtain ⟨d, h1, r, h2, rfl⟩ := h
      intro p hp
      rcases List.mem_cons.mp hp with rfl | hp
      · cases code with
        | plain =>
          simp only [decodeLine, Option.some.injEq] at h1
          subst h1
          exact hne
        | base64 =>
          simp only [decodeLine, Base64.decode_eq] at h1
          exact groups_ne h1 hne
      · exact ofLines_ne code ls r h2 p hp

/-! ## Reports -/

theorem decimal_eq (n : Nat) : decimal n = decimalText n := by
  show (Nat.repr n).toList.map Char.toNat = _
  unfold Nat.repr decimalText
  rw [String.toList_ofList]

theorem rounds_const {σ : Type} (x : σ) : ∀ (k : Nat) (s : σ), 0 < k → rounds (fun _ => some x) k s = some x
  | 1, _, _ => rfl
  | k + 2, s, _ => by
    show (some x).bind (rounds (fun _ => some x) (k + 1)) = some x
    exact rounds_const x (k + 1) x (by omega)

theorem occurrences_sorted (P T : List Nat) : (occurrences P T).Pairwise (· ≤ ·) := by
  unfold occurrences
  exact (List.pairwise_le_range).filter _

theorem sortOccs_eq {l : List Nat} {P T : List Nat} (h : l.Perm (occurrences P T)) : sortOccs l = occurrences P T := by
  unfold sortOccs
  exact List.Perm.eq_of_pairwise (fun a b _ _ => Nat.le_antisymm) (List.pairwise_insertionSort (· ≤ ·) l) (occurrences_sorted P T)
    ((List.perm_insertionSort (· ≤ ·) l).trans h)

theorem occLines_eq : ∀ (l out : List Nat), occLines l out = out ++ l.flatMap (fun o => bytesOf "  " ++ decimalText o ++ bytesOf "\n")
  | [], out => by simp [occLines]
  | item :: l, out => by
    rw [occLines, occLines_eq l, decimal_eq]
    simp [lit, bytesOf]

/-- line and string of a pattern -/
def pairOf (p : Pattern) : List Nat × List Nat := (p.encoded, p.decoded)

def sumOccs (T : List Nat) (ps : List Pattern) : Nat := (ps.map (fun p => (occurrences p.decoded T).length)).sum

theorem total_eq (T : List Nat) (ps : List Pattern) : totalOccurrences T (ps.map pairOf) = sumOccs T ps % 2 ^ 64 := by
  unfold totalOccurrences sumOccs
  rw [List.map_map]
  rfl

section
variable {locate : List Nat → Option (List Nat)} {count : List Nat → Option (Nat × Nat)} {T sa : List Nat}

/-- locate answers the patterns of the list -/
def LocatesAll (locate : List Nat → Option (List Nat)) (T : List Nat) (ps : List Pattern) : Prop :=
  ∀ p ∈ ps, ∃ l, locate p.decoded = some l ∧ l.Perm (occurrences p.decoded T)

theorem macroBody_of : ∀ (ps : List Pattern) (total : Nat), total < W64 → LocatesAll locate T ps →
    macroBody locate ps total = some ((total + sumOccs T ps) % W64)
  | [], total, h, _ => by simp [macroBody, sumOccs, Nat.mod_eq_of_lt h]
  | p :: ps, total, h, hp => by
    obtain ⟨l, h1, h2⟩ := hp p (by simp)
    rw [macroBody, h1]
    simp only [Option.bind_eq_bind, Option.bind_some]
    rw [macroBody_of ps _ (Nat.mod_lt _ (by omega)) (fun x hx => hp x (by simp [hx])), h2.length_eq]
    simp only [sumOccs, List.map_cons, List.sum_cons, Nat.mod_add_mod, Nat.add_assoc]

theorem macroBody_eq (hl : LocateExact locate T) (ps : List Pattern) (total : Nat) (h : total < W64) (hp : ∀ p ∈ ps, IsPattern p.decoded T) :
    macroBody locate ps total = some ((total + sumOccs T ps) % W64) := macroBody_of ps total h (fun p hp' => hl _ (hp p hp'))

theorem printBody_of : ∀ (ps : List Pattern) (out : List Nat) (total : Nat), total < W64 → LocatesAll locate T ps →
    printBody locate ps (out, total) = some (out ++ locateReport T (ps.map pairOf), (total + sumOccs T ps) % W64)
  | [], out, total, h, _ => by simp [printBody, sumOccs, locateReport, Nat.mod_eq_of_lt h]
  | p :: ps, out, total, h, hp => by
    obtain ⟨l, h1, h2⟩ := hp p (by simp)
    rw [printBody, h1]
    simp only [Option.bind_eq_bind, Option.bind_some]
    rw [printBody_of ps _ _ (Nat.mod_lt _ (by omega)) (fun x hx => hp x (by simp [hx])), h2.length_eq, sortOccs_eq h2, occLines_eq]
    simp only [sumOccs, List.map_cons, List.sum_cons, Nat.mod_add_mod, Nat.add_assoc, locateReport, List.flatMap_cons, pairOf, lit, bytesOf,
      List.append_assoc]

theorem printBody_eq (hl : LocateExact locate T) (ps : List Pattern) (out : List Nat) (total : Nat) (h : total < W64)
    (hp : ∀ p ∈ ps, IsPattern p.decoded T) :
    printBody locate ps (out, total) = some (out ++ locateReport T (ps.map pairOf), (total + sumOccs T ps) % W64) :=
  printBody_of ps out total h (fun p hp' => hl _ (hp p hp'))

theorem countBody_eq (hc : CountExact count T) : ∀ (ps : List Pattern) (total : Nat), total < W64 → (∀ p ∈ ps, IsPattern p.decoded T) →
    countBody count ps total = some ((total + sumOccs T ps) % W64)
  | [], total, h, _ => by simp [countBody, sumOccs, Nat.mod_eq_of_lt h]
  | p :: ps, total, h, hp => by
    obtain ⟨a, b, h1, h2, h3⟩ := hc p.decoded (hp p (by simp))
    have hs : csub b a = some (b - a) := by simp [csub, h2]
    rw [countBody, h1]
    simp only [Option.bind_eq_bind, Option.bind_some, hs]
    rw [countBody_eq hc ps _ (Nat.mod_lt _ (by omega)) (fun x hx => hp x (by simp [hx])), h3]
    simp only [sumOccs, List.map_cons, List.sum_cons, Nat.mod_add_mod, Nat.add_assoc]

/-- the rows of the report of counts -/
def countRows (T : List Nat) (ps : List (List Nat × List Nat)) (ivs : List (Nat × Nat)) : List Nat :=
  (ps.zip ivs).flatMap (fun x => bytesOf "\"" ++ x.1.1 ++ bytesOf "\"," ++ decimalText (occurrences x.1.2 T).length ++ bytesOf "," ++
      decimalText x.2.1 ++ bytesOf "," ++ decimalText x.2.2 ++ bytesOf "\n")

theorem printCountBody_eq (hc : CountExact count T) (hi : CountInterval count T sa) : ∀ (ps : List Pattern) (out : List Nat) (total : Nat), total < W64 →
    (∀ p ∈ ps, IsPattern p.decoded T) →
    ∃ ivs : List (Nat × Nat), List.Forall₂ (fun p iv => IsInterval p.decoded T sa iv.1 iv.2) ps ivs ∧
      printCountBody count ps (out, total) = some (out ++ countRows T (ps.map pairOf) ivs, (total + sumOccs T ps) % W64)
  | [], out, total, h, _ => ⟨[], .nil, by simp [printCountBody, sumOccs, countRows, Nat.mod_eq_of_lt h]⟩
  | p :: ps, out, total, h, hp => by
    obtain ⟨a, b, h1, h2, h3⟩ := hc p.decoded (hp p (by simp))
    obtain ⟨a', b', h1', h4⟩ := hi p.decoded (hp p (by simp))
    rw [h1] at h1'
    cases h1'
    have hs : csub b a = some (b - a) := by simp [csub, h2]
    obtain ⟨ivs, e1, e2⟩ := printCountBody_eq hc hi ps
      (out ++ lit "\"" ++ p.encoded ++ lit "\"," ++ decimal (b - a) ++ lit "," ++ decimal a ++ lit "," ++ decimal b ++ lit "\n")
      ((total + (b - a)) % W64) (Nat.mod_lt _ (by omega)) (fun x hx => hp x (by simp [hx]))
    refine ⟨(a, b) :: ivs, .cons h4 e1, ?_⟩
    rw [printCountBody, h1]
    simp only [Option.bind_eq_bind, Option.bind_some, hs]
    rw [e2, h3]
    simp only [sumOccs, List.map_cons, List.sum_cons, Nat.mod_add_mod, Nat.add_assoc, countRows, List.zip_cons_cons, List.flatMap_cons, pairOf, lit,
      bytesOf, List.append_assoc, decimal_eq]

end

end Bench
end Sri
