import Verif.Props.StringPairsSeven
import Verif.Props.Generators
import Verif.Examples.Compute

/-!
C111: how far the generated strings with two slots are complete. For equal ends they are, except for slots without common labels from seven
points on; for different ends they are not, already at six points.
-/

namespace Lips

open Finset

variable {K : Type*} [Field K] {n : ℕ}

/-! ### Equal ends -/

theorem isSlot_of_rest {a : Fin n} {S P T : Finset (Fin n)} {p : Bool} (hT : T = P ∨ T = others a a \ P) (h : IsSlot a S T p) : ∃ p', IsSlot a S P p' := by
  rcases hT with rfl | rfl
  · exact ⟨p, h⟩
  · refine ⟨!p, ?_⟩
    unfold IsSlot at h ⊢
    ext k
    have := congrArg (k ∈ ·) h
    rw [others_self] at this
    cases p <;> simp only [mem_erase, mem_sdiff, mem_compl, mem_singleton, Bool.false_eq_true, if_false, if_true, Bool.not_false, Bool.not_true, eq_iff_iff] at this ⊢ <;> tauto

theorem slot_listed {a : Fin n} {P : Finset (Fin n)} (hP : P ⊆ others a a) (h2 : 2 ≤ #P) (h2' : 2 ≤ #(others a a \ P)) :
    ∃ T, (T = P ∨ T = others a a \ P) ∧ ListedSlot a a T ∧ ∃ p, IsSlot a T P p := by
  obtain ⟨T, ⟨hT, hl⟩, -⟩ := C110_one_of_two hP h2 h2'
  refine ⟨T, hT, hl, ?_⟩
  rw [others_self] at hT
  exact slot_pair hT

theorem Factors.symm {a d : Fin n} {P Q : Finset (Fin n)} (h : Factors a d P Q) : Factors d a Q P := by
  obtain ⟨S, p, q, h1, h2⟩ := h
  exact ⟨S, q, p, h2, h1⟩

theorem OneApart.symm {a : Fin n} {P Q : Finset (Fin n)} (h : OneApart a P Q) : OneApart a Q P := by
  obtain ⟨S, x, p, q, hx, hxa, h1, h2⟩ := h
  refine ⟨(insert x S)ᶜ, x, !q, !p, by simp, hxa, isSlot_compl.2 (by simpa using h2), ?_⟩
  have e : insert x (insert x S)ᶜ = Sᶜ := by
    ext k
    simp only [mem_insert, mem_compl, not_or]
    by_cases hk : k = x
    · subst hk; simp [hx]
    · simp [hk]
  rw [e]
  exact isSlot_compl.2 (by simpa using h1)

theorem not_both_later {P Q : Finset (Fin n)} (h : LaterSlot P Q) : ¬ LaterSlot Q P := by
  rintro ⟨y', hy', h1', -⟩
  obtain ⟨y, hy, h1, -⟩ := h
  exact lt_asymm (h1 y' hy') (h1' y hy)

/-- C111: for a massless point that conserves momentum, a string with equal ends vanishes, is the product of a string with one slot and a bracket,
or has up to sign the value of a string that is not removed; and that one is generated, unless its slots have no common label. -/
theorem C111_equal_ends (h6 : 6 ≤ n) (h9 : n ≤ 9) {ord : SetOrder} (hord : ∀ k l, (ord k l).Perm l) {L : List Brk} (hL : all4 n ord = .ok L)
    {c : Ctx K} {ps : Point K n} {r l : Fin n → V2 K} (h : Spin c ps r l) (hc : Conserves ps) (fuel : ℕ) (sq : Bool) {a : Fin n} {P Q : Finset (Fin n)}
    (hP : P ⊆ others a a) (hQ : Q ⊆ others a a) (hP2 : 2 ≤ #P) (hP2' : 2 ≤ #(others a a \ P)) (hQ2 : 2 ≤ #Q) (hQ2' : 2 ≤ #(others a a \ Q)) :
    ∃ v, computeText ps fuel (fourText sq a a P Q) = some (.ok (.num v)) ∧
      (Factors a a P Q → v = 0) ∧
      (∀ S x p q, x ∉ S → IsSlot a S P p → IsSlot a (insert x S) Q q → v = sgn p * sgn q *
        (if sq then threeVal r l x a S * SpecSquare (l x) (l a) else threeVal r l a x S * SpecAngle (r x) (r a))) ∧
      (¬ Factors a a P Q → ¬ OneApart a P Q → ∃ P' Q', Kept a a P' Q' ∧ (¬ Disjoint P' Q' → fourText sq a a P' Q' ∈ L.map Brk.text) ∧
        ∃ s : Bool, computeText ps fuel (fourText sq a a P' Q') = some (.ok (.num (sgn s * v)))) := by
  have hz := h.conserves_iff.mp hc
  have nP : P.Nonempty := card_pos.1 (by omega)
  have nQ : Q.Nonempty := card_pos.1 (by omega)
  refine ⟨_, C111_value h fuel sq a a nP nQ, ?_, ?_, ?_⟩
  · rintro ⟨S, p, q, h1, h2⟩
    rw [C111_factor sq hz h1 h2]
    cases sq <;> simp [endsVal, angle_self, square_self]
  · intro S x p q hx h1 h2
    exact C111_one_apart sq hz hx h1 h2
  · intro hF hO
    obtain ⟨P', hP', lP, p, sP⟩ := slot_listed hP hP2 hP2'
    obtain ⟨Q', hQ', lQ, q, sQ⟩ := slot_listed hQ hQ2 hQ2'
    have hF' : ¬ Factors a a P' Q' := fun ⟨S, _, _, h1, h2⟩ => by
      obtain ⟨p', h1'⟩ := isSlot_of_rest hP' h1
      obtain ⟨q', h2'⟩ := isSlot_of_rest hQ' h2
      exact hF ⟨S, p', q', h1', h2'⟩
    have hO' : ¬ OneApart a P' Q' := fun ⟨S, x, _, _, hx, hxa, h1, h2⟩ => by
      obtain ⟨p', h1'⟩ := isSlot_of_rest hP' h1
      obtain ⟨q', h2'⟩ := isSlot_of_rest hQ' h2
      exact hO ⟨S, x, p', q', hx, hxa, h1', h2'⟩
    have hne : P' ≠ Q' := fun e => hF' ⟨P', true, true, isSlot_self _ _, by rw [e]; exact isSlot_self _ _⟩
    have val : fourVal sq r l a a P Q = sgn p * (sgn q * fourVal sq r l a a P' Q') := by rw [four_slot sq hz sP, four_slot' sq hz sQ]
    have gen : ∀ {X Y : Finset (Fin n)}, Kept a a X Y → (¬ Disjoint X Y → fourText sq a a X Y ∈ L.map Brk.text) := fun hk hd =>
      (C111_list h6 h9 hord hL).2.2 sq a a _ _ hk fun _ => hd
    by_cases hl : LaterSlot P' Q'
    · have hk : Kept a a Q' P' := ⟨le_refl _, lQ, lP, hne.symm, fun _ => not_both_later hl, fun hr => by
        rcases (C111_removed_equal lQ lP).1 hr with h1 | h1
        · exact hF' h1.symm
        · exact hO' h1.symm⟩
      refine ⟨Q', P', hk, gen hk, !(p == q), ?_⟩
      rw [C111_value h fuel sq a a hk.ne_left hk.ne_right, val, C111_reverse sq r l a a P' Q']
      cases p <;> cases q <;> simp [sgn]
    · have hk : Kept a a P' Q' := ⟨le_refl _, lP, lQ, hne, fun _ => hl, fun hr => by
        rcases (C111_removed_equal lP lQ).1 hr with h1 | h1
        · exact hF' h1
        · exact hO' h1⟩
      refine ⟨P', Q', hk, gen hk, p == q, ?_⟩
      rw [C111_value h fuel sq a a hk.ne_left hk.ne_right, val]
      cases p <;> cases q <;> simp [sgn]

/-- C111, the part of completeness that holds for different ends: a string is a product, or removed without being one, or has up to sign the value of a
generated string. What is missing: the middle case does occur, see `C111_six_missing`. -/
theorem C111_different_ends_partial (h6 : 6 ≤ n) (h9 : n ≤ 9) {ord : SetOrder} (hord : ∀ k l, (ord k l).Perm l) {L : List Brk} (hL : all4 n ord = .ok L)
    {c : Ctx K} {ps : Point K n} {r l : Fin n → V2 K} (h : Spin c ps r l) (hc : Conserves ps) (fuel : ℕ) (sq : Bool) {a d : Fin n} (had : a < d)
    {P Q : Finset (Fin n)} (hP : P ⊆ others a a) (hQ : Q ⊆ others d d) (hP2 : 2 ≤ #P) (hP2' : 2 ≤ #(others a a \ P)) (hQ2 : 2 ≤ #Q)
    (hQ2' : 2 ≤ #(others d d \ Q)) : ∃ v, computeText ps fuel (fourText sq a d P Q) = some (.ok (.num v)) ∧
      (∀ S p q, IsSlot a S P p → IsSlot d S Q q → v = sgn p * sgn q * (endsVal sq r l a d * sVal r l S)) ∧
      ∃ P' Q' p q, IsSlot a P' P p ∧ IsSlot d Q' Q q ∧ ListedSlot a a P' ∧ ListedSlot d d Q' ∧ (¬ Removed a d P' Q' → fourText sq a d P' Q' ∈ L.map Brk.text) ∧
        computeText ps fuel (fourText sq a d P' Q') = some (.ok (.num (sgn p * sgn q * v))) := by
  have hz := h.conserves_iff.mp hc
  have nP : P.Nonempty := card_pos.1 (by omega)
  have nQ : Q.Nonempty := card_pos.1 (by omega)
  refine ⟨_, C111_value h fuel sq a d nP nQ, fun S p q h1 h2 => C111_factor sq hz h1 h2, ?_⟩
  obtain ⟨P', hP', lP, p, sP⟩ := slot_listed hP hP2 hP2'
  obtain ⟨Q', hQ', lQ, q, sQ⟩ := slot_listed hQ hQ2 hQ2'
  refine ⟨P', Q', p, q, sP, sQ, lP, lQ, fun hr => ?_, ?_⟩
  · refine (C111_list h6 h9 hord hL).2.2 sq a d _ _ ⟨had.le, lP, lQ, fun e => hr ?_, fun e => absurd e had.ne, hr⟩ fun e => absurd e had.ne
    exact C111_removed_factor lP lQ ⟨P', true, true, isSlot_self _ _, by rw [e]; exact isSlot_self _ _⟩
  · rw [C111_value h fuel sq a d lP.ne lQ.ne, four_slot sq hz sP, four_slot' sq hz sQ]
    cases p <;> cases q <;> simp [sgn]

/-! ### A string that is missing at six points -/

instance : Fact (Nat.Prime 10007) := ⟨by norm_num⟩

/-- Numbers modulo 10007. -/
abbrev F10007 := ZMod 10007

instance : NeZero (2 : F10007) := ⟨by decide⟩

/-- A context without square roots and without `1j`. -/
def f10007 : Ctx F10007 where
  conv := .symmetric
  small x := x = 0
  small_zero := by simp
  sqrt _ := none
  sqrt_sq := by intro x y h; cases h
  imag := none
  imag_sq := by intro i h; cases h

/-- Six massless particles that conserve momentum; ⟨1|(2+3)|(3+4)|2⟩ vanishes and no generated bracket, string or s does. -/
def spinSix : Fin 6 → V2 F10007 × V2 F10007 :=
  ![(![6355, 6312], ![4974, 565]), (![3830, 3046], ![978, 7987]), (![914, 376], ![2454, 1518]), (![1657, 2440], ![5269, 1142]),
    (![1781, 2867], ![171, 2249]), (![7977, 2617], ![5078, 5983])]

def rSix (k : Fin 6) : V2 F10007 := (spinSix k).1
def lSix (k : Fin 6) : V2 F10007 := (spinSix k).2

theorem spinSix_spin : Spin f10007 (spinPoint f10007 spinSix) rSix lSix := spinPoint_isMassless f10007 spinSix

theorem spinSix_conserves : Conserves (spinPoint f10007 spinSix) := spinPoint_conserves _ _ (by decide +kernel)

theorem six_two : ∀ i j : Fin 6, i ≠ j → SpecAngle (rSix i) (rSix j) ≠ 0 ∧ SpecSquare (lSix i) (lSix j) ≠ 0 := by decide +kernel

set_option maxRecDepth 100000 in
theorem six_three : ∀ a d : Fin 6, ∀ P ∈ powersetCard 2 (univ : Finset (Fin 6)), a ∉ P → d ∉ P → threeVal rSix lSix a d P ≠ 0 := by decide +kernel

set_option maxRecDepth 100000 in
theorem six_four : ∀ a d : Fin 6, a ≤ d → ∀ P ∈ powersetCard 2 (univ : Finset (Fin 6)), a ∉ P → ∀ Q ∈ powersetCard 2 (univ : Finset (Fin 6)), d ∉ Q →
    ¬ Removed a d P Q → fourVal false rSix lSix a d P Q ≠ 0 ∧ fourVal true rSix lSix a d P Q ≠ 0 := by decide +kernel

theorem six_s : ∀ i j k : Fin 6, i < j → j < k →
    specPairs (fun i j => SpecAngle (rSix i) (rSix j) * SpecSquare (lSix j) (lSix i)) [i, j, k] ≠ 0 := by decide +kernel

set_option maxRecDepth 100000 in
theorem six_names : ∀ t ∈ allS 6, ∃ i j k : Fin 6, i < j ∧ j < k ∧ t = "s_".toList ++ digitText [i, j, k] := by decide +kernel

/-- C111 refuted for different ends: at six points ⟨1|(2+3)|(3+4)|2⟩ is removed though it is no product. At some massless point that conserves momentum it
vanishes, while none of the generated brackets, strings with one or two slots, and s does. -/
theorem C111_six_missing : ∃ (c : Ctx F10007) (ps : Point F10007 6) (r l : Fin 6 → V2 F10007), Spin c ps r l ∧ Conserves ps ∧
    Removed (0 : Fin 6) 1 {1, 2} {2, 3} ∧ ¬ Factors (0 : Fin 6) 1 {1, 2} {2, 3} ∧
    ∀ (fuel : ℕ) (ord : SetOrder), (∀ k l, (ord k l).Perm l) → ∀ L3 L4, all3 6 = .ok L3 → all4 6 ord = .ok L4 →
      fourText false (0 : Fin 6) 1 {1, 2} {2, 3} ∉ L4.map Brk.text ∧
      computeText ps fuel (fourText false (0 : Fin 6) 1 {1, 2} {2, 3}) = some (.ok (.num 0)) ∧
      ∀ t ∈ allTwo 6 ++ L3.map Brk.text ++ L4.map Brk.text ++ allS 6, ∃ v, v ≠ 0 ∧ computeText ps fuel t = some (.ok (.num v)) := by
  have hS := spinSix_spin
  have h0 : fourVal false rSix lSix 0 1 {1, 2} {2, 3} = 0 := by decide +kernel
  have hrem : Removed (0 : Fin 6) 1 {1, 2} {2, 3} := by decide
  refine ⟨f10007, spinPoint f10007 spinSix, rSix, lSix, hS, spinSix_conserves, hrem, ?_, ?_⟩
  · rintro ⟨S, p, q, h1, h2⟩
    rw [isSlot_iff (by decide)] at h1 h2
    revert h1 h2
    cases p <;> cases q <;> revert S <;> decide
  intro fuel ord hord L3 L4 h3 h4
  refine ⟨fun hm => ?_, by rw [C111_value hS fuel false 0 1 (by decide) (by decide), h0], fun t ht => ?_⟩
  · obtain ⟨sq, a, d, P, Q, hk, e⟩ := (C111_list (by decide) (by decide) hord h4).2.1 _ hm
    obtain ⟨-, rfl, rfl, rfl, rfl⟩ := fourText_inj (by decide) (by decide) hk.ne_left hk.ne_right e
    exact hk.stay hrem
  have two : ∀ {a : Fin 6} {P : Finset (Fin 6)}, ListedSlot a a P → P ∈ powersetCard 2 (univ : Finset (Fin 6)) := fun {a P} h => by
    have c1 := rest_card h.away
    have c2 := h.card
    have c3 := h.two
    exact mem_powersetCard.2 ⟨subset_univ _, by omega⟩
  simp only [List.mem_append] at ht
  rcases ht with ((ht | ht) | ht) | ht
  · rw [(C57_two_brackets 6).2] at ht
    obtain ⟨i, j, h1, h2, h3', e⟩ := ht
    obtain ⟨x, y, hij, rfl, rfl⟩ : ∃ x y : Fin 6, x ≠ y ∧ i = x.val + 1 ∧ j = y.val + 1 :=
      ⟨⟨i - 1, by omega⟩, ⟨j - 1, by omega⟩, fun e => by have := congrArg Fin.val e; simp only at this; omega, by simp only; omega, by simp only; omega⟩
    rcases e with rfl | ⟨-, rfl⟩
    · refine ⟨_, (six_two x y hij).1, ?_⟩
      rw [C82_angle _ fuel _ _ (by decide) (by decide)]
      simp only [angle, (hS x).r_u, (hS y).r_d, dot2_angle, asNum]
    · refine ⟨_, (six_two x y hij).2, ?_⟩
      rw [C82_square]
      simp only [square, (hS x).l_d, (hS y).l_u, dot2_square, asNum]
  · obtain ⟨L, hL, -, hm⟩ := C110_list (n := 6) (by decide)
    obtain rfl : L3 = L := Except.ok.inj (h3.symm.trans hL)
    obtain ⟨a, d, P, hP, rfl⟩ := (hm t).1 ht
    refine ⟨_, ?_, C110_value hS fuel a d hP.ne⟩
    have c1 := card_sdiff_add_card_eq_card hP.sub
    have c2 : #(others a d) ≤ 5 := by
      rw [others, card_compl, Fintype.card_fin]
      have : 0 < #({a, d} : Finset (Fin 6)) := card_pos.2 ⟨a, by simp⟩
      omega
    have c3 := hP.two
    have c4 := hP.small
    have hs := hP.sub
    have away : ∀ {k}, k ∈ P → k ≠ a ∧ k ≠ d := fun {k} hk => by
      have := hP.sub hk
      rw [others, mem_compl, mem_insert, mem_singleton, not_or] at this
      exact this
    exact six_three a d P (mem_powersetCard.2 ⟨subset_univ _, by omega⟩) (fun h => (away h).1 rfl) fun h => (away h).2 rfl
  · obtain ⟨sq, a, d, P, Q, hk, rfl⟩ := (C111_list (by decide) (by decide) hord h4).2.1 t ht
    refine ⟨_, ?_, C111_value hS fuel sq a d hk.ne_left hk.ne_right⟩
    have := six_four a d hk.le P (two hk.left) hk.left.away Q (two hk.right) hk.right.away hk.stay
    cases sq
    · exact this.1
    · exact this.2
  · obtain ⟨i, j, k, hij, hjk, rfl⟩ := six_names t ht
    refine ⟨_, six_s i j k hij hjk, ?_⟩
    rw [C82_mandelstam _ fuel _ (by decide) [i, j, k] (by simp) (fun x _ => by omega), C15_sum_of_pairs f10007 _ _ rSix lSix fun k _ => hS k]

/-! ### Strings that are generated twice at nine points -/

theorem nine_kept : Kept (0 : Fin 9) 0 {1, 2} {1, 2, 3, 4} ∧ Kept (0 : Fin 9) 0 {1, 2, 3, 4} {1, 2} := by
  have h1 : ListedSlot (0 : Fin 9) 0 {1, 2} := ⟨by decide, by decide, by decide⟩
  have h2 : ListedSlot (0 : Fin 9) 0 {1, 2, 3, 4} := ⟨by decide, by decide, by decide +kernel⟩
  exact ⟨⟨le_refl _, h1, h2, by decide, fun _ => by decide, by decide +kernel⟩, ⟨le_refl _, h2, h1, by decide, fun _ => by decide, by decide +kernel⟩⟩

/-- C111 (finding): at nine points, whenever the strings are generated, both ⟨1|(2+3)|(2+3+4+5)|1⟩ and ⟨1|(2+3+4+5)|(2+3)|1⟩ are, though they differ by a
sign only, at every point. -/
theorem C111_nine_twice {ord : SetOrder} (hord : ∀ k l, (ord k l).Perm l) {L : List Brk} (hL : all4 9 ord = .ok L) (sq : Bool) :
    fourText sq (0 : Fin 9) 0 {1, 2} {1, 2, 3, 4} ∈ L.map Brk.text ∧ fourText sq (0 : Fin 9) 0 {1, 2, 3, 4} {1, 2} ∈ L.map Brk.text ∧
    ∀ r l : Fin 9 → V2 K, fourVal sq r l 0 0 {1, 2, 3, 4} {1, 2} = -fourVal sq r l 0 0 {1, 2} {1, 2, 3, 4} := by
  have h := (C111_list (n := 9) (by decide) (by decide) hord hL).2.2 sq 0 0
  exact ⟨h _ _ nine_kept.1 fun _ => by decide, h _ _ nine_kept.2 fun _ => by decide, fun r l => C111_reverse sq r l 0 0 _ _⟩

end Lips
