import Verif.Props.InvariantsContents
import Verif.Props.SetText
import Verif.Props.Gram
import Verif.Props.Arcs
import Verif.Props.SetMandelstam

/-!
C116: `compute` and `_set` read every text that `Invariants(n)` lists.
-/

namespace Lips

open Finset

variable {n : ℕ}

/-- The strings that may be added at six points, whatever the random numbers, invariants.py:92. -/
def nineStrings : List PStr := ["⟨2|(1+3)|5]", "⟨3|(1+5)|4]", "⟨6|(1+3)|4]", "⟨6|(2+4)|3]", "⟨4|(3+5)|1]", "⟨2|(1+4)|5]",
  "⟨4|(2+5)|1]", "⟨6|(2+5)|3]", "⟨3|(4+6)|1]"].map String.toList

/-- `compute` takes the text for something that can be set, and `_set` takes it for the same. -/
def ReadBoth (t : List Char) : Prop := setClassify t ≠ .nothing ∧ settable (classify t) = some (setClassify t)

instance (t : List Char) : Decidable (ReadBoth t) := inferInstanceAs (Decidable (_ ∧ _))

/-- `compute` returns a number, the same one for all numbers of rounds from `n` on that are granted to the loops over the labels. -/
def Computes {K : Type*} [Field K] (ps : Point K n) (t : List Char) : Prop :=
  ∃ v, ∀ fuel, n ≤ fuel → computeText ps fuel t = some (.ok (.num v))

/-! ### Reading -/

theorem readBoth_of {t : List Char} {g : Form} {f : SetForm} (h : ReadsAs t g) (e : settable g = some f) : ReadBoth t := by
  have hg : classify t = g := (C92_reads (by rintro rfl; simp [settable] at e)).2 h
  have hs : setClassify t = f := C93_agrees (by rw [hg, e])
  refine ⟨?_, by rw [hg, e, hs]⟩
  rw [hs]
  rintro rfl
  revert e
  cases g <;> simp [settable]

theorem readBoth_string {o c : Char} (ho : o ∈ ['<', '⟨', '[']) (hc : c ∈ ['⟩', ']', '>']) (a d : ℕ) {slots : List (Bool × List (Bool × ℕ))}
    (hne : slots ≠ []) (h : ∀ s ∈ slots, s.2 ≠ []) : ReadBoth (stringText o a slots d c) :=
  readBoth_of ((C92_reads (by simp)).1 (classify_string o a slots d c ho hc hne h)) rfl

theorem sort_ne {P : Finset (Fin n)} (hP : P.Nonempty) : P.sort (· ≤ ·) ≠ [] := fun e => by
  have := P.length_sort (· ≤ ·)
  rw [e] at this
  exact absurd (card_eq_zero.1 this.symm) hP.ne_empty

theorem readBoth_three (a d : Fin n) {P : Finset (Fin n)} (hP : P.Nonempty) : ReadBoth (threeText a d P) :=
  readBoth_string (by decide) (by decide) _ _ (by simp) (by simpa using sort_ne hP)

theorem readBoth_four (sq : Bool) (a d : Fin n) {P Q : Finset (Fin n)} (hP : P.Nonempty) (hQ : Q.Nonempty) : ReadBoth (fourText sq a d P Q) := by
  have h : ∀ s ∈ [(true, (P.sort (· ≤ ·)).map fun k : Fin n => (true, (k : ℕ) + 1)), (true, (Q.sort (· ≤ ·)).map fun k : Fin n => (true, (k : ℕ) + 1))],
      s.2 ≠ [] := by simpa using ⟨sort_ne hP, sort_ne hQ⟩
  cases sq
  · exact readBoth_string (by decide) (by decide) _ _ (by simp) h
  · exact readBoth_string (by decide) (by decide) _ _ (by simp) h

theorem readBoth_six (a : Fin n) {P Q R : List (Fin n)} (hP : P ≠ []) (hQ : Q ≠ []) (hR : R ≠ []) : ReadBoth (sixText a P Q R) :=
  readBoth_string (by decide) (by decide) _ _ (by simp) (by simpa using ⟨hP, hQ, hR⟩)

/-! ### Labels as digits -/

theorem labels_fin {L : List ℕ} (h : ∀ x ∈ L, 1 ≤ x ∧ x ≤ n) : ∃ ls : List (Fin n), L = ls.map fun l : Fin n => (l : ℕ) + 1 := by
  induction L with
  | nil => exact ⟨[], rfl⟩
  | cons x L ih =>
    obtain ⟨ls, e⟩ := ih fun y hy => h y (List.mem_cons_of_mem _ hy)
    have hx := h x (by simp)
    exact ⟨⟨x - 1, by omega⟩ :: ls, by simp [e]; omega⟩

theorem digitChar_of : ∀ k < 10, Nat.digitChar k = digitOf k := by decide

theorem digits_fin (h9 : n ≤ 9) {L : List ℕ} (h : ∀ x ∈ L, 1 ≤ x ∧ x ≤ n) :
    ∃ ls : List (Fin n), L = (ls.map fun l : Fin n => (l : ℕ) + 1) ∧ L.map Nat.digitChar = digitText ls ∧ OneDigit ls := by
  obtain ⟨ls, rfl⟩ := labels_fin h
  refine ⟨ls, rfl, ?_, fun l _ => by omega⟩
  rw [List.map_map, digitText]
  refine List.map_congr_left fun l _ => ?_
  exact digitChar_of ((l : ℕ) + 1) (by have := l.2; omega)

theorem setDigits_fin (h9 : n ≤ 9) {S : Finset ℕ} (hS : S ⊆ allLabels n) : ∃ ls : List (Fin n), setDigits S = digitText ls ∧ ls.length = #S ∧ OneDigit ls ∧ ls.Nodup := by
  obtain ⟨ls, e1, e2, e3⟩ := digits_fin h9 (L := S.sort (· ≤ ·)) fun x hx => by
    have := hS ((Finset.mem_sort _).1 hx)
    simpa [allLabels] using this
  refine ⟨ls, e2, ?_, e3, ?_⟩
  · rw [← S.length_sort (· ≤ ·), e1, List.length_map]
  · have := Finset.sort_nodup S (· ≤ ·)
    rw [e1] at this
    exact this.of_map _

/-- The loops over the labels stop within `n` rounds, and every label they return is one of the particles. -/
theorem corners_ok (h9 : n ≤ 9) {i j k : Fin n} (hij : i ≠ j) (hjk : j ≠ k) (hik : i ≠ k) :
    ∃ A B C, ∀ fuel, n ≤ fuel → shortCorners n fuel (digitText [i, j, k]) = some (.ok (A, B, C)) := by
  have rg : ∀ x : Fin n, (1 : ℤ) ≤ ((x : ℕ) + 1 : ℕ) ∧ (((x : ℕ) + 1 : ℕ) : ℤ) ≤ n := fun x => ⟨by omega, by omega⟩
  have ne : ∀ {x y : Fin n}, x ≠ y → (((x : ℕ) + 1 : ℕ) : ℤ) ≠ (((y : ℕ) + 1 : ℕ) : ℤ) := fun h e => h (Fin.ext (by omega))
  obtain ⟨A, B, C, hr, -, -, -, -, -, -, hp⟩ := C43_three_arcs n _ _ _ (rg i) (rg j) (rg k) (ne hij) (ne hjk) (ne hik)
  have mem : ∀ z ∈ A ++ B ++ C, 1 ≤ z.toNat ∧ z.toNat ≤ n := by
    intro z hz
    obtain ⟨x, hx, rfl⟩ := List.mem_map.1 (hp.mem_iff.1 hz)
    rw [List.mem_range'_1] at hx
    simp only [Int.ofNat_eq_natCast, Int.toNat_natCast]
    omega
  have ok : ∀ L : List ℤ, (∀ z ∈ L, z ∈ A ++ B ++ C) → ∃ L' : List (Fin n), (L.mapM fun z => label n z.toNat) = .ok L' := by
    intro L hL
    induction L with
    | nil => exact ⟨[], rfl⟩
    | cons z L ih =>
      obtain ⟨L', e⟩ := ih fun y hy => hL y (List.mem_cons_of_mem _ hy)
      refine ⟨⟨z.toNat - 1, by have := mem z (hL z (by simp)); omega⟩ :: L', ?_⟩
      rw [List.mapM_cons, label_ok (mem z (hL z (by simp))), e]
      rfl
  obtain ⟨A', eA⟩ := ok A (by simp +contextual)
  obtain ⟨B', eB⟩ := ok B (by simp +contextual)
  obtain ⟨C', eC⟩ := ok C (by simp +contextual)
  refine ⟨A', B', C', fun fuel hf => ?_⟩
  have ed : digitsOf (digitText [i, j, k]) = [(i : ℕ) + 1, (j : ℕ) + 1, (k : ℕ) + 1] := by
    simp only [digitsOf, digitText, List.map_cons, List.map_nil]
    rw [digitOf_val _ (by omega), digitOf_val _ (by omega), digitOf_val _ (by omega)]
  simp only [shortCorners, ed, hr fuel hf, eA, eB, eC]

/-! ### The values -/

section
variable {K : Type*} [Field K]

theorem computes_two {c : Ctx K} {ps : Point K n} {r l : Fin n → V2 K} (h : Spin c ps r l) (i j : Fin n) :
    Computes ps (twoText '⟨' (i + 1) (j + 1) '⟩') ∧ Computes ps (twoText '[' (i + 1) (j + 1) ']') := by
  obtain ⟨x, y, e1, -, e2, -⟩ := C14_antisymmetric c (h i).toHasSpinors (h j).toHasSpinors
  refine ⟨⟨x, fun fuel _ => ?_⟩, ⟨y, fun fuel _ => ?_⟩⟩
  · rw [C82_angle ps fuel _ _ (by decide) (by decide), e1]; rfl
  · rw [C82_square ps fuel, e2]; rfl

theorem computes_delta (ps : Point K n) (h9 : n ≤ 9) {i j k : Fin n} (hij : i ≠ j) (hjk : j ≠ k) (hik : i ≠ k) :
    Computes ps ("Δ_".toList ++ digitText [i, j, k]) := by
  obtain ⟨A, B, C, e⟩ := corners_ok h9 hij hjk hik
  exact ⟨_, fun fuel hf => (C82_shorthands ps fuel i j k (fun l _ => by omega) (e fuel hf)).2.2⟩

theorem computes_tr5 (h9 : n ≤ 9) {c : Ctx K} {ps : Point K n} {r l : Fin n → V2 K} (h : Spin c ps r l) (i j k m : Fin n) :
    Computes ps ("tr5_".toList ++ digitText [i, j, k, m]) := by
  refine ⟨SpecTr5 ![(ps i).r2, slotMom ps (single j), slotMom ps (single k), slotMom ps (single m)],
    fun fuel _ => (C82_tr5_labels ps fuel i j k m fun l _ => by omega).trans (congrArg some ?_)⟩
  have ok : ∀ k, SlotOk c ps (single k) := by
    intro k b' k' h'
    simp only [single, List.mem_singleton, Prod.mk.injEq] at h'
    rw [h'.2]; exact (h k).cons
  rw [show computeTr5 ps [(true, i)] [(true, j)] [(true, k)] [(true, m)] = _ from
    tr5_value c ps (h i) (by omega) (single j) (single k) (single m) (ok j) (ok k) (ok m)]
  rfl

/-- Three corners written out, at six and seven points. -/
theorem computes_corners (ps : Point K n) (h9 : n ≤ 9) {A B C : List (Fin n)} (hA : A ≠ []) (hB : B ≠ []) (hC : C ≠ []) :
    Computes ps ("Δ_".toList ++ ['|'].intercalate ([A, B, C].map digitText)) :=
  ⟨_, fun fuel _ => C82_delta ps fuel A B [C] (by simp [hA, hB, hC]) fun c _ l _ => by omega⟩

theorem shorthands_read : ∀ t ∈ (["Ω_135", "Ω_351", "Ω_513", "Ω_624", "Ω_246", "Ω_462"] ++
    ["Π_135", "Π_351", "Π_513", "Π_624", "Π_246", "Π_462"]).map String.toList, ReadBoth t := by
  decide +kernel

theorem sort_two {x y : Fin n} (h : x < y) : ({x, y} : Finset (Fin n)).sort (· ≤ ·) = [x, y] := by
  have := (List.toFinset_sort (l := [x, y]) (· ≤ ·) (by simp [h.ne])).2 (by simp [h.le])
  simpa using this

/-- Their ends and slots, counted from zero. -/
def nineLabels : List (Fin 6 × Fin 6 × Fin 6 × Fin 6) :=
  [(1, 4, 0, 2), (2, 3, 0, 4), (5, 3, 0, 2), (5, 2, 1, 3), (3, 0, 2, 4), (1, 4, 0, 3), (3, 0, 1, 4), (5, 2, 1, 4), (2, 0, 3, 5)]

theorem nine_texts : nineStrings = nineLabels.map fun x => threeText x.1 x.2.1 {x.2.2.1, x.2.2.2} := by
  simp only [nineLabels, List.map_cons, List.map_nil, threeText]
  rw [sort_two (by decide), sort_two (by decide), sort_two (by decide), sort_two (by decide), sort_two (by decide), sort_two (by decide),
    sort_two (by decide)]
  decide +kernel

theorem seven_texts : sevenExtra = [fourText false (0 : Fin 7) 0 {4, 5} {1, 6}, fourText true (0 : Fin 7) 0 {4, 5} {1, 6},
    "Δ_".toList ++ ['|'].intercalate ([[0, 1], [2, 3, 6], [4, 5]].map (digitText (n := 7)))] := by
  simp only [fourText]
  rw [sort_two (by decide), sort_two (by decide)]
  decide +kernel

theorem six_texts : sixExtra = [[[0, 4], [1, 5], [2, 3]], [[0, 3], [1, 2], [4, 5]], [[0, 2], [1, 3], [4, 5]]].map
    fun x : List (List (Fin 6)) => "Δ_".toList ++ ['|'].intercalate (x.map digitText) := by
  decide +kernel

theorem computes_omega (ps : Point K 6) : ∀ t ∈ (["Ω_135", "Ω_351", "Ω_513", "Ω_624", "Ω_246", "Ω_462"] ++
    ["Π_135", "Π_351", "Π_513", "Π_624", "Π_246", "Π_462"]).map String.toList, Computes ps t := by
  have key : ∀ (i j k : Fin 6) (a b a' b' : Fin 6) (C : List (Fin 6)), i ≠ j → j ≠ k → i ≠ k →
      shortCorners 6 6 (digitText [i, j, k]) = some (.ok ([a, b], [a', b'], C)) →
      Computes ps ("Ω_".toList ++ digitText [i, j, k]) ∧ Computes ps ("Π_".toList ++ digitText [i, j, k]) := by
    intro i j k a b a' b' C hij hjk hik hs
    obtain ⟨A, B, C', e⟩ := corners_ok (by decide) hij hjk hik
    have := (e 6 le_rfl).symm.trans hs
    simp only [Option.some.injEq, Except.ok.injEq, Prod.mk.injEq] at this
    obtain ⟨rfl, rfl, rfl⟩ := this
    exact ⟨⟨_, fun fuel hf => (C82_shorthands ps fuel i j k (fun l _ => by omega) (e fuel hf)).1⟩,
      ⟨_, fun fuel hf => (C82_shorthands ps fuel i j k (fun l _ => by omega) (e fuel hf)).2.1⟩⟩
  have k1 := key 0 2 4 0 1 2 3 [4, 5] (by decide) (by decide) (by decide) (by decide +kernel)
  have k2 := key 2 4 0 2 3 4 5 [0, 1] (by decide) (by decide) (by decide) (by decide +kernel)
  have k3 := key 4 0 2 4 5 0 1 [2, 3] (by decide) (by decide) (by decide) (by decide +kernel)
  have k4 := key 5 1 3 5 0 1 2 [3, 4] (by decide) (by decide) (by decide) (by decide +kernel)
  have k5 := key 1 3 5 1 2 3 4 [5, 0] (by decide) (by decide) (by decide) (by decide +kernel)
  have k6 := key 3 5 1 3 4 5 0 [1, 2] (by decide) (by decide) (by decide) (by decide +kernel)
  intro t ht
  simp only [List.cons_append, List.nil_append, List.map_cons, List.map_nil, List.mem_cons, List.not_mem_nil, or_false] at ht
  rcases ht with rfl | rfl | rfl | rfl | rfl | rfl | rfl | rfl | rfl | rfl | rfl | rfl
  exacts [k1.1, k2.1, k3.1, k4.1, k5.1, k6.1, k1.2, k2.2, k3.2, k4.2, k5.2, k6.2]

/-- C116: at every massless point `compute` returns a number for every text that `Invariants(n)` lists, without raising, and it takes the text
for an invariant that `_set` sets: no listed text is ignored by `_set`. -/
theorem C116_usable (h6 : 6 ≤ n) {ord : SetOrder} (hord : ∀ k l, (ord k l).Perm l) {hard : Except Err (List PStr)} (hh : ∀ l, hard = .ok l → l ⊆ nineStrings)
    {f : Flags} {inv : Key → List PStr} (h : generate n ord hard f = .ok inv) {t : PStr} (ht : t ∈ invFull inv) :
    ReadBoth t ∧ ∀ {c : Ctx K} {ps : Point K n} {r l : Fin n → V2 K}, Spin c ps r l → Computes ps t := by
  have h9 : n ≤ 9 := by
    by_contra hc
    rw [C60_ten_particles_raise (by omega)] at h
    cases h
  have three : ∀ (a d : Fin n) {P : Finset (Fin n)}, P.Nonempty → ReadBoth (threeText a d P) ∧
      ∀ {c : Ctx K} {ps : Point K n} {r l : Fin n → V2 K}, Spin c ps r l → Computes ps (threeText a d P) :=
    fun a d P hP => ⟨readBoth_three a d hP, fun hs => ⟨_, fun fuel _ => C110_value hs fuel a d hP⟩⟩
  have four : ∀ (sq : Bool) (a d : Fin n) {P Q : Finset (Fin n)}, P.Nonempty → Q.Nonempty → ReadBoth (fourText sq a d P Q) ∧
      ∀ {c : Ctx K} {ps : Point K n} {r l : Fin n → V2 K}, Spin c ps r l → Computes ps (fourText sq a d P Q) :=
    fun sq a d P Q hP hQ => ⟨readBoth_four sq a d hP hQ, fun hs => ⟨_, fun fuel _ => C111_value hs fuel sq a d hP hQ⟩⟩
  have ne : ∀ {a d : Fin n} {P : Finset (Fin n)}, ListedSlot a d P → P.Nonempty := fun hP => card_pos.1 (by have := hP.two; omega)
  have others := C114_others h6 h t
  obtain ⟨k, hk⟩ := (C114_joined inv t).1.1 ht
  fin_cases k
  · obtain ⟨i, j, hi, hij, hj, e⟩ := others.1.1 hk
    obtain ⟨i, rfl⟩ : ∃ i' : Fin n, i = i' + 1 := ⟨⟨i - 1, by omega⟩, by simp; omega⟩
    obtain ⟨j, rfl⟩ : ∃ j' : Fin n, j = j' + 1 := ⟨⟨j - 1, by omega⟩, by simp; omega⟩
    rcases e with rfl | rfl
    · refine ⟨readBoth_of (g := .angle (pyStr (i + 1)) (pyStr (j + 1))) ?_ rfl, fun hs => (computes_two hs i j).1⟩
      simpa [twoText] using ReadsAs.angle (o := '⟨') (c := '⟩') (by decide) (by decide) (digits_pyStr (i + 1)) (digits_pyStr (j + 1))
    · refine ⟨readBoth_of (g := .square (pyStr (i + 1)) (pyStr (j + 1))) ?_ rfl, fun hs => (computes_two hs i j).2⟩
      simpa [twoText] using ReadsAs.square (digits_pyStr (i + 1)) (digits_pyStr (j + 1))
  · rcases (C114_one_slot h t).1 hk with ⟨a, d, P, hP, rfl, -⟩ | ⟨rfl, -, l, e, hl⟩
    · exact three a d (ne hP)
    · have := hh l e hl
      rw [nine_texts] at this
      obtain ⟨⟨a, d, x, y⟩, hm, rfl⟩ := List.mem_map.1 this
      exact three a d (P := {x, y}) (insert_nonempty _ _)
  · obtain ⟨L, -, h2⟩ := C114_two_slots h6 hord h
    rcases (h2 t).1 hk with ⟨sq, a, d, P, Q, hkp, rfl, -⟩ | ⟨rfl, hs⟩
    · exact four sq a d (ne hkp.left) (ne hkp.right)
    · simp only [seven_texts, List.mem_cons, List.not_mem_nil, or_false] at hs
      rcases hs with rfl | rfl | rfl
      · exact four false 0 0 (P := {4, 5}) (Q := {1, 6}) (by decide) (by decide)
      · exact four true 0 0 (P := {4, 5}) (Q := {1, 6}) (by decide) (by decide)
      · exact ⟨by decide +kernel, fun {c ps r l} _ => computes_corners ps h9 (A := [0, 1]) (B := [2, 3, 6]) (C := [4, 5]) (by decide) (by decide) (by decide)⟩
  · obtain ⟨a, P, Q, R, hp, -, rfl⟩ := (C114_three_slots h t).1 hk
    refine ⟨readBoth_six a hp.neP hp.neQ hp.neR, fun hs => ⟨_, fun fuel _ => C113_value hs fuel a hp.neP hp.neQ hp.neR ?_ ?_ ?_⟩⟩
    all_goals
      have := (List.nodup_cons.1 hp.all).2
      rw [List.nodup_append, List.nodup_append] at this
    exacts [this.1.1, this.1.2.1, this.2.1]
  · obtain ⟨S, hS, h3, -, rfl⟩ := others.2.1 hk
    obtain ⟨ls, e, el, ho, -⟩ := setDigits_fin h9 hS
    have hne : ls ≠ [] := by rintro rfl; simp at el; omega
    rw [sName, e]
    refine ⟨readBoth_of (ReadsAs.mandelstam (c := 's') (us := ['_']) (by decide) (by decide) ((isDigits_lang _).1 (isDigits_digitText ho hne))) rfl, fun {c ps r l} _ => ⟨_, fun fuel _ =>
      C82_mandelstam ps fuel "s_".toList (by decide) ls hne ho⟩⟩
  · rcases others.2.2.2.1.1 hk with ⟨a, b, d, hm, rfl⟩ | ⟨rfl, hs⟩
    · obtain ⟨i, j, k, h1, h2, h3, h4, e⟩ := mem_genDTriples.1 hm
      have rg : (1 ≤ a ∧ a ≤ n) ∧ (1 ≤ b ∧ b ≤ n) ∧ (1 ≤ d ∧ d ≤ n) ∧ a ≠ b ∧ b ≠ d ∧ a ≠ d := by
        simp only [dTriple, Prod.mk.injEq] at e
        obtain ⟨rfl, rfl, rfl⟩ := e
        split <;> omega
      obtain ⟨ls, e1, e2, ho⟩ := digits_fin h9 (L := [a, b, d]) (by simp; omega)
      rcases ls with _ | ⟨x, _ | ⟨y, _ | ⟨z, _ | _⟩⟩⟩ <;> simp only [List.map_cons, List.map_nil, List.cons.injEq, reduceCtorEq, and_true, and_false] at e1
      obtain ⟨rfl, rfl, rfl⟩ := e1
      have et : ['Δ', '_', Nat.digitChar (x + 1), Nat.digitChar (y + 1), Nat.digitChar (z + 1)] = "Δ_".toList ++ digitText [x, y, z] := by
        rw [← e2]; rfl
      rw [et]
      obtain ⟨-, -, -, n1, n2, n3⟩ := rg
      refine ⟨?_, fun {c ps r l} _ => computes_delta ps h9 (fun e => n1 (by rw [e])) (fun e => n2 (by rw [e])) fun e => n3 (by rw [e])⟩
      have hd := (isDigits_lang _).1 (isDigits_digitText ho (by simp))
      refine readBoth_of (g := .delta [digitText [x, y, z]]) ?_ rfl
      simpa using ReadsAs.delta (cs := [digitText [x, y, z]]) (by simp) (by simpa using hd)
    · simp only [six_texts, List.map_cons, List.map_nil, List.mem_cons, List.not_mem_nil, or_false] at hs
      rcases hs with rfl | rfl | rfl
      · exact ⟨by decide +kernel, fun {c ps r l} _ => computes_corners ps h9 (A := [0, 4]) (B := [1, 5]) (C := [2, 3]) (by decide) (by decide) (by decide)⟩
      · exact ⟨by decide +kernel, fun {c ps r l} _ => computes_corners ps h9 (A := [0, 3]) (B := [1, 2]) (C := [4, 5]) (by decide) (by decide) (by decide)⟩
      · exact ⟨by decide +kernel, fun {c ps r l} _ => computes_corners ps h9 (A := [0, 2]) (B := [1, 3]) (C := [4, 5]) (by decide) (by decide) (by decide)⟩
  · obtain ⟨rfl, hs⟩ := others.2.2.2.2.1.1 hk
    exact ⟨shorthands_read t (by rw [List.map_append]; exact List.mem_append_left _ hs), fun {c ps r l} _ => computes_omega ps t (by rw [List.map_append]; exact List.mem_append_left _ hs)⟩
  · obtain ⟨rfl, hs⟩ := others.2.2.2.2.2.1.1 hk
    exact ⟨shorthands_read t (by rw [List.map_append]; exact List.mem_append_right _ hs), fun {c ps r l} _ => computes_omega ps t (by rw [List.map_append]; exact List.mem_append_right _ hs)⟩
  · obtain ⟨S, hS, h4, rfl⟩ := others.2.2.2.2.2.2.1 hk
    obtain ⟨ls, e, el, ho, -⟩ := setDigits_fin h9 (hS.trans (Icc_subset_Icc_right (by omega)))
    rw [h4] at el
    rw [tr5Name, e]
    rcases ls with _ | ⟨x, _ | ⟨y, _ | ⟨z, _ | ⟨w, _ | _⟩⟩⟩⟩ <;> simp at el
    exact ⟨readBoth_of (ReadsAs.tr5Labels ((isDigits_lang _).1 (isDigits_digitText ho (by simp)))) rfl, fun hs => computes_tr5 h9 hs x y z w⟩

end

/-! ### Room to restore momentum -/

/-- C116: every listed two-particle bracket, string with one slot, Mandelstam invariant and tr5 leaves two labels out, from which `_set` restores
momentum; the label that is changed to set it (the head of a string, the first label of s and tr5) is not repeated. The strings with three slots leave no label out. -/
theorem C116_room (h6 : 6 ≤ n) {ord : SetOrder} {hard : Except Err (List PStr)} (hh : ∀ l, hard = .ok l → l ⊆ nineStrings)
    {f : Flags} {inv : Key → List PStr} (h : generate n ord hard f = .ok inv) (t : PStr) :
    (t ∈ inv 0 → ∃ i j p q : Fin n, (t = twoText '⟨' (i + 1) (j + 1) '⟩' ∨ t = twoText '[' (i + 1) (j + 1) ']') ∧ i ≠ j ∧ FirstTwoFree [i, j] p q) ∧
    (t ∈ inv 1 → ∃ (a d : Fin n) (P : Finset (Fin n)) (p q : Fin n), t = threeText a d P ∧ a ∉ P ∧ FirstTwoFree (a :: d :: P.sort (· ≤ ·)) p q) ∧
    (t ∈ inv 3 → ∃ (a : Fin n) (P Q R : List (Fin n)), t = sixText a P Q R ∧ ∀ k, k ∈ a :: (P ++ Q ++ R)) ∧
    (t ∈ inv 4 → ∃ (i : Fin n) (rest : List (Fin n)) (p q : Fin n), t = "s_".toList ++ digitText (i :: rest) ∧ i ∉ rest ∧ 2 ≤ rest.length ∧
      FirstTwoFree (i :: rest) p q) ∧
    (t ∈ inv 8 → ∃ i j k m p q : Fin n, t = "tr5_".toList ++ digitText [i, j, k, m] ∧ i ∉ [j, k, m] ∧ FirstTwoFree [i, j, k, m] p q) := by
  have h9 : n ≤ 9 := by
    by_contra hc
    rw [C60_ten_particles_raise (by omega)] at h
    cases h
  have others := C114_others h6 h t
  refine ⟨fun hk => ?_, fun hk => ?_, fun hk => ?_, fun hk => ?_, fun hk => ?_⟩
  · obtain ⟨i, j, hi, hij, hj, e⟩ := others.1.1 hk
    obtain ⟨p, q, hpq⟩ := C64_room (n := n) [⟨i - 1, by omega⟩, ⟨j - 1, by omega⟩] (by simp; omega)
    refine ⟨_, _, p, q, ?_, ?_, hpq⟩
    · simpa [show i - 1 + 1 = i by omega, show j - 1 + 1 = j by omega] using e
    · simp; omega
  · rcases (C114_one_slot h t).1 hk with ⟨a, d, P, hP, rfl, -⟩ | ⟨rfl, -, l, e, hl⟩
    · have ha : a ∉ P := fun x => by have := hP.sub x; simp [Lips.others] at this
      have hr : ∀ x ∈ Lips.others a d \ P, x ∉ a :: d :: P.sort (· ≤ ·) := by
        intro x hx
        rw [mem_sdiff] at hx
        simp only [List.mem_cons, Finset.mem_sort, not_or]
        have := hx.1
        simp only [Lips.others, mem_compl, mem_insert, mem_singleton, not_or] at this
        exact ⟨this.1, this.2, hx.2⟩
      have h2 : 2 ≤ #(Lips.others a d \ P) := by
        have := hP.two
        rcases hP.small with e | ⟨e, -⟩ <;> omega
      obtain ⟨p, q, hpq⟩ := exists_firstTwoFree (used := a :: d :: P.sort (· ≤ ·)) (by
        have hd : Disjoint (Lips.others a d \ P) (a :: d :: P.sort (· ≤ ·)).toFinset :=
          disjoint_left.2 fun x hx hx' => hr x hx (List.mem_toFinset.1 hx')
        have := card_le_univ ((Lips.others a d \ P) ∪ (a :: d :: P.sort (· ≤ ·)).toFinset)
        rw [card_union_of_disjoint hd, Fintype.card_fin, List.card_toFinset] at this
        omega)
      exact ⟨a, d, P, p, q, rfl, ha, hpq⟩
    · have := hh l e hl
      rw [nine_texts] at this
      obtain ⟨⟨a, d, x, y⟩, hm, rfl⟩ := List.mem_map.1 this
      have hxy : x < y ∧ a ≠ x ∧ a ≠ y := by
        have all : ∀ z ∈ ([(1, 4, 0, 2), (2, 3, 0, 4), (5, 3, 0, 2), (5, 2, 1, 3), (3, 0, 2, 4), (1, 4, 0, 3), (3, 0, 1, 4), (5, 2, 1, 4), (2, 0, 3, 5)] :
            List (Fin 6 × Fin 6 × Fin 6 × Fin 6)), z.2.2.1 < z.2.2.2 ∧ z.1 ≠ z.2.2.1 ∧ z.1 ≠ z.2.2.2 := by decide +kernel
        exact all _ hm
      obtain ⟨p, q, hpq⟩ := C64_room (a :: d :: [x, y]) (by simp)
      refine ⟨a, d, {x, y}, p, q, rfl, by simp [hxy.2.1, hxy.2.2], ?_⟩
      rwa [sort_two hxy.1]
  · obtain ⟨a, P, Q, R, hp, -, rfl⟩ := (C114_three_slots h t).1 hk
    exact ⟨a, P, Q, R, rfl, hp.cover⟩
  · obtain ⟨S, hS, h3, h2, rfl⟩ := others.2.1 hk
    obtain ⟨ls, e, el, ho, hn⟩ := setDigits_fin h9 hS
    rcases ls with _ | ⟨i, rest⟩
    · simp at el; omega
    obtain ⟨p, q, hpq⟩ := C64_room (i :: rest) (by omega)
    rw [List.length_cons] at el
    exact ⟨i, rest, p, q, by rw [sName, e]; rfl, (List.nodup_cons.1 hn).1, by omega, hpq⟩
  · obtain ⟨S, hS, h4, rfl⟩ := others.2.2.2.2.2.2.1 hk
    obtain ⟨ls, e, el, ho, hn⟩ := setDigits_fin h9 (hS.trans (Icc_subset_Icc_right (by omega)))
    rw [h4] at el
    rcases ls with _ | ⟨x, _ | ⟨y, _ | ⟨z, _ | ⟨w, _ | _⟩⟩⟩⟩ <;> simp at el
    obtain ⟨p, q, hpq⟩ := C64_room [x, y, z, w] (by simp; omega)
    exact ⟨x, y, z, w, p, q, by rw [tr5Name, e]; rfl, (List.nodup_cons.1 hn).1, hpq⟩

end Lips
