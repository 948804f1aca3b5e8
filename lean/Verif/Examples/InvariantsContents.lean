import Verif.Props.InvariantsContents
import Verif.Props.InvariantsUsable

/-! Concrete cases for C113, C114 and C116. -/

namespace Lips

open Finset

/-- A massless point with seven particles over the field with 10007 elements. -/
def spinSeven : Fin 7 → V2 F10007 × V2 F10007 :=
  ![(![4186, 5875], ![1671, 9404]), (![8685, 476], ![4086, 215]), (![7629, 4081], ![3551, 6688]), (![850, 2570], ![4580, 2984]), (![1855, 6092], ![6381, 2615]), (![7686, 4040], ![1130, 6819]), (![6239, 8909], ![9046, 6142])]

def rSeven (k : Fin 7) : V2 F10007 := (spinSeven k).1
def lSeven (k : Fin 7) : V2 F10007 := (spinSeven k).2

theorem spinSeven_spin : Spin f10007 (spinPoint f10007 spinSeven) rSeven lSeven := spinPoint_isMassless f10007 spinSeven

theorem spinSeven_sum : SumZero rSeven lSeven := by unfold SumZero; decide +kernel

example : sixText (0 : Fin 7) [1, 2] [3, 4] [5, 6] = "⟨1|(2+3)|(4+5)|(6+7)|1]".toList := by decide

theorem seven_parts : Parts (0 : Fin 7) [1, 2] [3, 4] [5, 6] := ⟨by decide, by decide, by decide, by decide, by decide⟩

theorem seven_triple : IsTriple 7 ((0 : Fin 7) + 1) (named [(1 : Fin 7), 2]) (named [(3 : Fin 7), 4]) (named [(5 : Fin 7), 6]) :=
  ⟨2, 2, 2, by decide, by decide, by decide, by decide, .inl ⟨by decide, by decide, by decide⟩⟩

/-- ⟨1|(2+3)|(4+5)|(6+7)|1] is generated at seven points and has the value s_23 s_67 - s_123 s_167, which is not zero. -/
example : "⟨1|(2+3)|(4+5)|(6+7)|1]".toList ∈ (gen5 7).map fiveText ∧ fiveVal rSeven lSeven 0 {1, 2} {3, 4} {5, 6} ≠ 0 ∧
    fiveVal rSeven lSeven 0 {1, 2} {3, 4} {5, 6} =
      sVal rSeven lSeven {1, 2} * sVal rSeven lSeven {5, 6} - sVal rSeven lSeven {0, 1, 2} * sVal rSeven lSeven {0, 5, 6} :=
  ⟨(C113_texts _).2 ⟨0, _, _, _, seven_parts, seven_triple, by decide⟩, by decide +kernel,
    C113_mandelstams spinSeven_sum (by decide) (by decide) (by decide) (by decide) (by decide) (by decide) (by decide)⟩

/-- ⟨1|(6+7)|(4+5)|(2+3)|1] is not generated, but has the same value. -/
example : "⟨1|(6+7)|(4+5)|(2+3)|1]".toList ∉ (gen5 7).map fiveText ∧ fiveVal rSeven lSeven 0 {5, 6} {3, 4} {1, 2} = fiveVal rSeven lSeven 0 {1, 2} {3, 4} {5, 6} :=
  ⟨by decide +kernel, C113_reverse spinSeven_sum (by decide) (by decide) (by decide) (by decide) (by decide) (by decide) (by decide)⟩

/-- The other order of the middle and last slot has another value. -/
example : fiveVal rSeven lSeven 0 {1, 2} {5, 6} {3, 4} ≠ fiveVal rSeven lSeven 0 {1, 2} {3, 4} {5, 6} := by decide +kernel

/-- Without conservation of momentum the reversed string has another value. -/
example : fiveVal (fun k : Fin 7 => ![(k : F10007), 1]) (fun k => ![(k : F10007) ^ 2, 1]) 0 {5, 6} {3, 4} {1, 2} ≠
    fiveVal (fun k : Fin 7 => ![(k : F10007), 1]) (fun k => ![(k : F10007) ^ 2, 1]) 0 {1, 2} {3, 4} {5, 6} := by decide +kernel

/-- Seven points: the lists exist, and with the default arguments ⟨1|(2+3)|(2+7)|1⟩ fails only because it is a product. -/
example : ∃ r, generate 7 (fun _ l => l) (.ok []) ⟨true, false, true, true, true⟩ = .ok r ∧ "⟨1|(2+3)|(4+5)|(6+7)|1]".toList ∈ r 3 ∧ "Δ_12|347|56".toList ∈ r 2 := by
  have h := C60_six_seven (n := 7) (.inr rfl) (ord := fun _ l => l) (fun _ _ => .refl _) (.ok []) ⟨true, false, true, true, true⟩
  rw [if_neg (by decide), if_neg (by decide)] at h
  obtain ⟨r, hr⟩ := h
  obtain ⟨L, -, h2⟩ := C114_two_slots (n := 7) (by decide) (fun _ _ => .refl _) hr
  exact ⟨r, hr, (C114_three_slots hr _).2 ⟨0, _, _, _, seven_parts, seven_triple, by decide⟩, (h2 _).2 (.inr ⟨rfl, by decide⟩)⟩

/-- Six points: hard-coded strings that the block accepts are listed. -/
example : ∃ r, generate 6 (fun _ l => l) (.ok ["⟨2|(1+3)|5]".toList]) ⟨true, false, true, true, true⟩ = .ok r ∧ "⟨2|(1+3)|5]".toList ∈ r 1 ∧ "Δ_15|26|34".toList ∈ r 5 := by
  have h := C60_six_seven (n := 6) (.inl rfl) (ord := fun _ l => l) (fun _ _ => .refl _) (.ok ["⟨2|(1+3)|5]".toList]) ⟨true, false, true, true, true⟩
  rw [if_neg (by decide), if_pos (by decide)] at h
  obtain ⟨r, hr⟩ := h.2 _ rfl
  exact ⟨r, hr, (C114_one_slot hr _).2 (.inr ⟨rfl, rfl, _, rfl, by simp⟩), ((C114_others (n := 6) (by decide) hr _).2.2.2.1).2 (.inr ⟨rfl, by decide⟩)⟩

/-- Six points: one of the strings that the random block may add and a determinant with written corners can be computed and set. -/
example {c : Ctx F10007} {ps : Point F10007 6} {r l : Fin 6 → V2 F10007} (h : Spin c ps r l) :
    ∃ inv, generate 6 (fun _ l => l) (.ok ["⟨2|(1+3)|5]".toList]) ⟨true, false, true, true, true⟩ = .ok inv ∧
      (ReadBoth "⟨2|(1+3)|5]".toList ∧ Computes ps "⟨2|(1+3)|5]".toList) ∧ (ReadBoth "Δ_15|26|34".toList ∧ Computes ps "Δ_15|26|34".toList) := by
  have h' := C60_six_seven (n := 6) (.inl rfl) (ord := fun _ l => l) (fun _ _ => .refl _) (.ok ["⟨2|(1+3)|5]".toList]) ⟨true, false, true, true, true⟩
  rw [if_neg (by decide), if_pos (by decide)] at h'
  obtain ⟨inv, hr⟩ := h'.2 _ rfl
  have hh : ∀ L, (Except.ok ["⟨2|(1+3)|5]".toList] : Except Err (List PStr)) = .ok L → L ⊆ nineStrings := by
    rintro L e
    obtain rfl := Except.ok.inj e
    decide
  have use : ∀ t (k : Key), t ∈ inv k → ReadBoth t ∧ Computes ps t := fun t k hk =>
    have u := C116_usable (K := F10007) (n := 6) (by decide) (fun _ _ => .refl _) hh hr ((C114_joined inv t).1.2 ⟨k, hk⟩)
    ⟨u.1, u.2 h⟩
  exact ⟨inv, hr, use _ 1 ((C114_one_slot hr _).2 (.inr ⟨rfl, rfl, _, rfl, by simp⟩)),
    use _ 5 (((C114_others (n := 6) (by decide) hr "Δ_15|26|34".toList).2.2.2.1).2 (.inr ⟨rfl, by decide⟩))⟩

/-- `_set` ignores a text that is no invariant. -/
example : ¬ReadBoth "Δ_12|".toList := by decide +kernel

end Lips
