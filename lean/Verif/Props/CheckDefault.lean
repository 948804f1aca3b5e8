import Verif.Props.Check
import Verif.Props.Dispatch
import Verif.Props.Generators

/-!
Property C48, the default invariants: `phasespace_consistency_check()` without a list looks at the angle and the square bracket of every
pair of particles, each once (particles.py:326-327).
-/

namespace Lips

theorem defaultInvars_eq (n : ℕ) : defaultInvars n =
    (pairsUpTo n).map (fun p => twoText '⟨' p.1 p.2 '⟩') ++ (pairsUpTo n).map (fun p => twoText '[' p.1 p.2 ']') := by
  simp [defaultInvars, twoText]

/-- C48: no default invariant occurs twice, and they are the texts `⟨i|j⟩` and `[i|j]` of the pairs `1 ≤ i < j ≤ n`. -/
theorem C48_default (n : ℕ) : (defaultInvars n).Nodup ∧
    ∀ t, t ∈ defaultInvars n ↔
      ∃ i j, 1 ≤ i ∧ i < j ∧ j ≤ n ∧ (t = twoText '⟨' i j '⟩' ∨ t = twoText '[' i j ']') := by
  obtain ⟨hn, hm⟩ := C48_default_pairs n
  constructor
  · rw [defaultInvars_eq, List.nodup_append]
    refine ⟨hn.map ?_, hn.map ?_, ?_⟩
    · intro p q h
      obtain ⟨-, h1, h2, -⟩ := twoText_inj h
      exact Prod.ext h1 h2
    · intro p q h
      obtain ⟨-, h1, h2, -⟩ := twoText_inj h
      exact Prod.ext h1 h2
    · intro a ha b hb
      obtain ⟨p, -, rfl⟩ := List.mem_map.1 ha
      obtain ⟨q, -, rfl⟩ := List.mem_map.1 hb
      intro h
      exact absurd (twoText_inj h).1 (by decide)
  · intro t
    rw [defaultInvars_eq, List.mem_append, List.mem_map, List.mem_map]
    constructor
    · rintro (⟨⟨i, j⟩, hp, rfl⟩ | ⟨⟨i, j⟩, hp, rfl⟩)
      · obtain ⟨h1, h2, h3⟩ := (hm i j).1 hp
        exact ⟨i, j, h1, h2, h3, .inl rfl⟩
      · obtain ⟨h1, h2, h3⟩ := (hm i j).1 hp
        exact ⟨i, j, h1, h2, h3, .inr rfl⟩
    · rintro ⟨i, j, h1, h2, h3, rfl | rfl⟩
      · exact .inl ⟨(i, j), (hm i j).2 ⟨h1, h2, h3⟩, rfl⟩
      · exact .inr ⟨(i, j), (hm i j).2 ⟨h1, h2, h3⟩, rfl⟩

/-- C48: there are `n (n - 1)` default invariants. -/
theorem C48_default_count (n : ℕ) : (defaultInvars n).length = n * (n - 1) := by
  have key : ∀ m : ℕ, ∀ s : ℕ, ((List.range' s m).flatMap fun i => (List.range' (i + 1) (s + m - 1 - i)).map fun j => (i, j)).length * 2 =
      m * (m - 1) := by
    intro m
    induction m with
    | zero => intro s; rfl
    | succ m ih =>
      intro s
      rw [List.range'_succ, List.flatMap_cons, List.length_append, List.length_map, List.length_range', Nat.add_mul]
      have := ih (s + 1)
      rw [show s + 1 + m - 1 = s + (m + 1) - 1 by omega] at this
      rw [this, show s + (m + 1) - 1 - s = m by omega]
      rcases m with _ | m
      · rfl
      · simp only [Nat.add_sub_cancel]; ring
  have h := key n 1
  rw [defaultInvars_eq, List.length_append, List.length_map, List.length_map, pairsUpTo, ← h]
  simp only [show ∀ i, 1 + n - 1 - i = n - i from fun i => by omega]
  omega

variable {K : Type*} [Field K] {n : ℕ}

/-- C48: with no list given, the values compared with the threshold are the angle and the square brackets of the pairs: each default
invariant has one, and the one of every pair is there. -/
theorem C48_default_values (ps : Point K n) (fuel : ℕ) :
    (∀ t ∈ defaultInvars n, ∃ i j : Fin n, i < j ∧
      (computeText ps fuel t = some (asNum (angle (ps i) (ps j))) ∨ computeText ps fuel t = some (asNum (square (ps i) (ps j))))) ∧
    ∀ i j : Fin n, i < j →
      (∃ t ∈ defaultInvars n, computeText ps fuel t = some (asNum (angle (ps i) (ps j)))) ∧
      ∃ t ∈ defaultInvars n, computeText ps fuel t = some (asNum (square (ps i) (ps j))) := by
  constructor
  · intro t ht
    obtain ⟨i, j, h1, h2, h3, h⟩ := ((C48_default n).2 t).1 ht
    obtain ⟨i, rfl⟩ : ∃ k, i = k + 1 := ⟨i - 1, by omega⟩
    obtain ⟨j, rfl⟩ : ∃ k, j = k + 1 := ⟨j - 1, by omega⟩
    refine ⟨⟨i, by omega⟩, ⟨j, by omega⟩, by simpa using h2, ?_⟩
    rcases h with rfl | rfl
    · exact .inl (C82_angle ps fuel '⟨' '⟩' (by decide) (by decide) ⟨i, by omega⟩ ⟨j, by omega⟩)
    · exact .inr (C82_square ps fuel ⟨i, by omega⟩ ⟨j, by omega⟩)
  · intro i j hij
    have hm := fun t => ((C48_default n).2 t).2
    have hj : (i : ℕ) + 1 < j + 1 := by have : (i : ℕ) < j := hij; omega
    exact ⟨⟨_, hm _ ⟨i + 1, j + 1, by omega, hj, by omega, .inl rfl⟩, C82_angle ps fuel '⟨' '⟩' (by decide) (by decide) i j⟩,
      ⟨_, hm _ ⟨i + 1, j + 1, by omega, hj, by omega, .inr rfl⟩, C82_square ps fuel i j⟩⟩

example : defaultInvars 3 = ["⟨1|2⟩", "⟨1|3⟩", "⟨2|3⟩", "[1|2]", "[1|3]", "[2|3]"].map String.toList := by decide +kernel

end Lips
