import Verif.Proofs.RleBwt
/-! # What constructIndexBaseItems leaves in the cache -/
namespace Sri
set_option autoImplicit false

section
variable {T sa : List Nat}

theorem bwtTextPos_eq (hsa : IsSA T sa) {i : Nat} (h : i < T.length) : bwtTextPos T.length (sa.getD i 0) = pv T sa i := by
  have hn : 0 < T.length := by omega
  change bwtTextPos T.length (saAt sa i) = _
  unfold bwtTextPos
  split
  · rename_i h0; rw [pv_of_pos hsa h h0]
  · rename_i h0; rw [pv_of_zero hn (by omega)]

theorem starts_eq : starts 0 (runsOf T sa) = (List.range (nrun T sa)).map (hd T sa) := by
  apply List.ext_getElem?
  intro k
  by_cases hk : k < nrun T sa
  · rw [starts_getElem 0 _ hk, List.getElem?_map, List.getElem?_range hk]; simp [hd]
  · rw [List.getElem?_eq_none (by rw [starts_length]; rw [nrun] at hk; omega), List.getElem?_eq_none (by simp; omega)]

theorem ends_eq : ends 0 (runsOf T sa) = (List.range (nrun T sa)).map (tl T sa) := by
  apply List.ext_getElem?
  intro k
  by_cases hk : k < nrun T sa
  · rw [ends_getElem 0 _ hk, List.getElem?_map, List.getElem?_range hk]; simp [tl]
  · rw [List.getElem?_eq_none (by rw [ends_length]; rw [nrun] at hk; omega), List.getElem?_eq_none (by simp; omega)]

/-- everything the index constructions take from the cache -/
structure BaseOK (T sa T' : List Nat) (b : BaseItems) : Prop where
  n : b.n = T'.length
  compact : Compact T sa b.alphabet T'
  rle : RleBwt b.bwtRle T' sa
  first : b.runs.first = (List.range (nrun T' sa)).map (hd T' sa)
  last : b.runs.last = (List.range (nrun T' sa)).map (tl T' sa)
  firstTextPos : b.runs.firstTextPos = headPos T' sa
  lastTextPos : b.runs.lastTextPos = tailPos T' sa

theorem base_build (hT : IsText T) (hsa : IsSA T sa) : ∃ b T', constructBase T sa = some b ∧ BaseOK T sa T' b := by
  have hc := compact_build hT hsa
  have hp := constructBWT_perm hT hsa
  have hl := constructBWT_length hsa
  have hn := hT.pos
  have hne : constructBWT T sa ≠ [] := by rw [← List.length_pos_iff, hl]; exact hn
  have hruns := constructBWTRuns_eq hne (sa := sa) (by rw [hl, hsa.length])
  set a := Alphabet.build (constructBWT T sa) with ha
  set T' := T.map a.char2comp with hT'
  have hn' : 0 < T'.length := by rw [hc.len]; exact hn
  have hinj : ∀ c ∈ constructBWT T sa, ∀ d ∈ constructBWT T sa, a.char2comp c = a.char2comp d → c = d :=
    fun c h1 d h2 => Alphabet.comp_inj _ h1 h2
  have hrle := rle_map_inj hinj
  have hR : runsOf T' sa = (rle (constructBWT T sa)).map (fun q => (a.char2comp q.1, q.2)) := by
    rw [runsOf, ← hc.bwt, hrle]
  have hst : starts 0 (rle (constructBWT T sa)) = (List.range (nrun T' sa)).map (hd T' sa) := by
    rw [← starts_eq, hR, starts_map]
  have hen : ends 0 (rle (constructBWT T sa)) = (List.range (nrun T' sa)).map (tl T' sa) := by
    rw [← ends_eq, hR, ends_map]
  rw [hst, hen, hl, ← hc.len] at hruns
  have hne2 : (constructBWT T sa).map a.char2comp ≠ [] := by simpa using hne
  obtain ⟨S, hS, -, hrep, hdom⟩ := build_rep hne2 (show 0 < 2 by omega)
  refine ⟨{ n := (constructBWT T sa).length, alphabet := a, bwtRle := S, runs :=
      { first := (List.range (nrun T' sa)).map (hd T' sa),
        firstTextPos := ((List.range (nrun T' sa)).map (hd T' sa)).map (fun i => bwtTextPos T'.length (sa.getD i 0)),
        last := (List.range (nrun T' sa)).map (tl T' sa),
        lastTextPos := ((List.range (nrun T' sa)).map (tl T' sa)).map (fun i => bwtTextPos T'.length (sa.getD i 0)) } },
    T', ?_, ?_⟩
  · unfold constructBase
    simp only [hruns, Option.bind_eq_bind, Option.bind_some, ← ha, hS]
    rfl
  · refine ⟨by simp [hl, hc.len], hc, ⟨?_, ?_⟩, rfl, rfl, ?_, ?_⟩
    · rw [runsOf, ← hc.bwt]; exact hrep
    · intro c h
      rw [hdom c]
      refine ⟨c, ?_, Nat.le_refl _⟩
      obtain ⟨d, hd, rfl⟩ := List.mem_map.1 h
      exact List.mem_map.2 ⟨d, hp.mem_iff.2 hd, rfl⟩
    · dsimp only
      rw [headPos, List.map_map]
      apply List.map_congr_left
      intro k hk
      exact bwtTextPos_eq hc.isSA (hd_lt (List.mem_range.1 hk))
    · dsimp only
      rw [tailPos, List.map_map]
      apply List.map_congr_left
      intro k hk
      exact bwtTextPos_eq hc.isSA (tl_lt (List.mem_range.1 hk))

end
end Sri
