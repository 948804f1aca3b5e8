import Verif.Model.InvariantsLists
import Verif.Props.StringTripleTexts
import Verif.Props.StringPairsMore

/-!
C114: what `Invariants(n)` lists, from six to nine particles.
-/

namespace Lips

open Finset

variable {n : ℕ}

/-! ### The restriction of the strings with two slots -/

set_option maxRecDepth 100000 in
theorem near_two : ∀ n ∈ List.range 10, ∀ a ∈ List.range' 1 n, ∀ x ∈ List.range' 1 n, ∀ y ∈ List.range' 1 n, x ≠ y → a ≠ x → a ≠ y →
    nearHalf n a [pyStr x, pyStr y] = .ok (neighbours n [a, x, y]) := by
  decide +kernel

/-- What the restriction asks of a slot: two labels, neighbours together with the label beside the slot. -/
def TwoNear (a : Fin n) (P : Finset (Fin n)) : Prop := #P = 2 ∧ IsCyclicInterval n (labelsOf (insert a P))

theorem pair_list {P : Finset (Fin n)} (h : #P = 2) : ∃ x y : Fin n, P = {x, y} ∧ x ≠ y ∧ tx P = [pyStr ((x : ℕ) + 1), pyStr ((y : ℕ) + 1)] := by
  have hl := setList_length P
  rw [h] at hl
  obtain ⟨u, v, e⟩ := List.length_eq_two.1 hl
  obtain ⟨x, hx, rfl⟩ := setList_range (P := P) (x := u) (by rw [e]; simp)
  obtain ⟨y, hy, rfl⟩ := setList_range (P := P) (x := v) (by rw [e]; simp)
  have hlt := setList_lt P
  rw [e] at hlt
  have hne : x ≠ y := by
    rintro rfl
    simp at hlt
  refine ⟨x, y, ?_, hne, by rw [tx, e]; rfl⟩
  refine (eq_of_subset_of_card_le (fun k hk => ?_) (by rw [h, card_pair hne])).symm
  rcases mem_insert.1 hk with rfl | hk
  · exact hx
  · rw [mem_singleton.1 hk]; exact hy

theorem nearHalf_iff (h9 : n ≤ 9) {a : Fin n} {P : Finset (Fin n)} (ha : a ∉ P) (h : #P = 2) :
    ∃ b, nearHalf n ((a + 1 : ℕ) : ℤ) (tx P) = .ok b ∧ (b = true ↔ IsCyclicInterval n (labelsOf (insert a P))) := by
  obtain ⟨x, y, rfl, hxy, e⟩ := pair_list h
  have hx : a ≠ x := fun h => ha (by simp [h])
  have hy : a ≠ y := fun h => ha (by simp [h])
  refine ⟨_, e ▸ near_two n (List.mem_range.2 (by omega)) _ (List.mem_range'_1.2 (by omega)) _ (List.mem_range'_1.2 (by omega)) _ (List.mem_range'_1.2 (by omega))
    (fun h => hxy (Fin.ext (by omega))) (fun h => hx (Fin.ext (by omega))) (fun h => hy (Fin.ext (by omega))), ?_⟩
  rw [neighbours_iff (by simp) (by simp)]
  have : ([(a : ℕ) + 1, (x : ℕ) + 1, (y : ℕ) + 1] : List ℕ).toFinset = labelsOf (insert a {x, y}) := by
    simp [labelsOf, image_insert]
  rw [this]

theorem long_slot (h9 : n ≤ 9) {P : Finset (Fin n)} (h : 2 ≤ #P) : 3 < (['+'].intercalate (tx P)).length ↔ #P ≠ 2 := by
  have one : ∀ t ∈ tx P, t.length = 1 := fun t ht => by
    obtain ⟨k, -, rfl⟩ := mem_tx.1 ht
    rw [pyStr_digit (by omega)]; rfl
  have len : ∀ l : List PStr, (∀ t ∈ l, t.length = 1) → l ≠ [] → (['+'].intercalate l).length = 2 * l.length - 1 := by
    intro l
    induction l with
    | nil => exact fun _ h => absurd rfl h
    | cons x l ih =>
      intro h1 _
      rcases l with _ | ⟨y, l⟩
      · simpa [List.intercalate] using h1 x (by simp)
      · have := ih (fun t ht => h1 t (by simp [ht])) (by simp)
        rw [show ['+'].intercalate (x :: y :: l) = x ++ ['+'] ++ ['+'].intercalate (y :: l) by simp [List.intercalate, List.intersperse]]
        rw [List.length_append, List.length_append, this, h1 x (by simp)]
        simp only [List.length_cons, List.length_nil]
        omega
  have hl := tx_length P
  rw [len _ one (fun e => by rw [e] at hl; simp at hl; omega), hl]
  omega

/-- C114: the restriction of the strings with two slots keeps, in their order, those whose slots both have two labels which are neighbours together with the end beside them. -/
theorem C114_restricted (h6 : 6 ≤ n) (h9 : n ≤ 9) {ord : SetOrder} (hord : ∀ k l, (ord k l).Perm l) {L : List Brk} (hL : all4 n ord = .ok L) :
    ∃ L', purge4 n true L L = .ok L' ∧ L'.Sublist L ∧ ∀ sq, ∀ (a d : Fin n) (P Q : Finset (Fin n)), P.Nonempty → Q.Nonempty →
      (fourText sq a d P Q ∈ L'.map Brk.text ↔ fourText sq a d P Q ∈ L.map Brk.text ∧ TwoNear a P ∧ TwoNear d Q) := by
  obtain ⟨r4, e4, hp, hm, hk⟩ := reduced_kept h6 h9
  have hn : r4.Nodup := hp.imp fun h => h.1
  have hg : ∀ b ∈ r4, GoodBrk n b := fun b hb => ((hm b).1 hb).1
  rw [all4_eq h6 h9 ord e4] at hL
  have hs := (removeDoubles_splits h6 h9 hord hn hg r4 0 r4 L rfl (.refl _) hL).1
  have hL' : ∀ b ∈ L, ∃ sq, ∃ (a d : Fin n) (P Q : Finset (Fin n)), Kept a d P Q ∧ b = fourBrk sq a d P Q := fun b hb => (hk b).1 (hs.subset hb)
  have test : ∀ sq, ∀ (a d : Fin n) (P Q : Finset (Fin n)), Kept a d P Q → ∃ t, purge4Test n true (fourBrk sq a d P Q) = .ok t ∧
      (t = false ↔ TwoNear a P ∧ TwoNear d Q) := by
    intro sq a d P Q h
    have aP := h.left.away
    have dQ := h.right.away
    unfold purge4Test
    by_cases hlong : ((fourBrk sq a d P Q).mids.any fun m => decide (3 < (['+'].intercalate m).length)) = true
    · refine ⟨true, if_pos hlong, ⟨fun h => (by cases h), fun ⟨hP, hQ⟩ => ?_⟩⟩
      simp only [fourBrk, List.any_cons, List.any_nil, Bool.or_false, Bool.or_eq_true, decide_eq_true_eq] at hlong
      rcases hlong with hl | hl
      · exact absurd hP.1 ((long_slot h9 h.left.two).1 hl)
      · exact absurd hQ.1 ((long_slot h9 h.right.two).1 hl)
    · rw [if_neg hlong, if_pos rfl]
      simp only [fourBrk, List.any_cons, List.any_nil, Bool.or_false, Bool.or_eq_true, decide_eq_true_eq, not_or, long_slot h9 h.left.two, long_slot h9 h.right.two,
        not_not] at hlong
      obtain ⟨b0, e0, i0⟩ := nearHalf_iff h9 aP hlong.1
      obtain ⟨b1, e1, i1⟩ := nearHalf_iff h9 dQ hlong.2
      unfold neigh4
      simp only [fourBrk, e0]
      cases b0
      · refine ⟨true, rfl, ⟨fun h => (by cases h), fun ⟨hP, _⟩ => ?_⟩⟩
        exact absurd (i0.2 hP.2) (by decide)
      · simp only [e1]
        refine ⟨!b1, rfl, ?_⟩
        rw [Bool.not_eq_false', i1]
        exact ⟨fun h => ⟨⟨hlong.1, i0.1 rfl⟩, hlong.2, h⟩, fun h => h.2.2⟩
  rw [purge4_own]
  obtain ⟨r, h1, h2, h3⟩ := ownLoop_ok (P := purge4Test n true) (bs := L) (r := L) (fun b hb => by
    obtain ⟨sq, a, d, P, Q, h, rfl⟩ := hL' b hb
    obtain ⟨t, ht, -⟩ := test sq a d P Q h
    exact ⟨t, ht⟩) (hn.sublist hs) (hn.sublist hs) fun _ h => h
  refine ⟨r, h1, h2, fun sq a d P Q hP hQ => ?_⟩
  rw [mem_texts L hL' hP hQ, mem_texts r (fun b hb => hL' b (h2.subset hb)) hP hQ, h3]
  refine and_congr_right fun hb => ?_
  obtain ⟨sq', a', d', P', Q', hkp, e⟩ := hL' _ hb
  have et := congrArg Brk.text e
  rw [four_text _ _ _ hP hQ, four_text _ _ _ hkp.ne_left hkp.ne_right] at et
  obtain ⟨rfl, rfl, rfl, rfl, rfl⟩ := fourText_inj hP hQ hkp.ne_left hkp.ne_right et
  obtain ⟨t, ht, hi⟩ := test sq a d P Q hkp
  rw [ht, ← hi]
  cases t <;> simp [hb]

/-! ### The nine lists -/

/-- The strings that are added by hand. -/
def sevenExtra : List PStr := ["⟨1|(5+6)|(2+7)|1⟩".toList, "[1|(5+6)|(2+7)|1]".toList, "Δ_12|347|56".toList]

def sixExtra : List PStr := ["Δ_15|26|34".toList, "Δ_14|23|56".toList, "Δ_13|24|56".toList]

theorem generate_parts {ord : SetOrder} {hard : Except Err (List PStr)} {f : Flags} {r : Key → List PStr} (h : generate n ord hard f = .ok r) :
    ∃ r3 r4 p3 p4 extra3, all3 n = .ok r3 ∧ all4 n ord = .ok r4 ∧ (if f.restrict3 then purge3 n r3 r3 else .ok r3) = .ok p3 ∧
      (if f.restrict4 then purge4 n f.further4 r4 r4 else .ok r4) = .ok p4 ∧ (if n = 6 ∧ f.noHard = false then hard else .ok []) = .ok extra3 ∧
      r 0 = allTwo n ∧ r 1 = p3.map Brk.text ++ extra3 ∧ r 2 = p4.map Brk.text ++ (if n = 7 then sevenExtra else []) ∧
      r 3 = (if 7 ≤ n then (gen5 n).map fiveText else []) ∧ r 4 = allS n ∧ r 5 = allD n ++ (if n = 6 then sixExtra else []) ∧
      r 6 = allO 'Ω' n ∧ r 7 = allO 'Π' n ∧ r 8 = allTr5 n := by
  unfold generate at h
  split at h
  · cases h
  next r3 e3 =>
  split at h
  · cases h
  next r4 e4 =>
  split at h
  · cases h
  next p3 ep3 =>
  split at h
  · cases h
  next p4 ep4 =>
  split at h
  · cases h
  next extra3 ex =>
  cases h
  exact ⟨r3, r4, p3, p4, extra3, e3, e4, ep3, ep4, ex, rfl, rfl, rfl, rfl, rfl, rfl, rfl, rfl, rfl⟩

theorem short_triples (h : n < 7) : gen5 n = [] := by
  rw [List.eq_nil_iff_forall_not_mem]
  rintro ⟨i, m1, m2, m3⟩ hm
  obtain ⟨-, -, p, q, r, hp, hq, hr, hn, -⟩ := C113_list.1 hm
  omega

/-- C114: the strings with one slot are those of C110, restricted or not, and at six points those accepted of the hard-coded ones unless switched off. -/
theorem C114_one_slot {ord : SetOrder} {hard : Except Err (List PStr)} {f : Flags} {r : Key → List PStr} (h : generate n ord hard f = .ok r) (t : PStr) :
    t ∈ r 1 ↔ (∃ (a d : Fin n) (P : Finset (Fin n)), ListedSlot a d P ∧ t = threeText a d P ∧ (f.restrict3 = true →
      IsCyclicInterval n (labelsOf ({a, d} ∪ P)) ∨ IsCyclicInterval n (labelsOf ({a, d} ∪ (others a d \ P))))) ∨
      (n = 6 ∧ f.noHard = false ∧ ∃ l, hard = .ok l ∧ t ∈ l) := by
  have h9 : n ≤ 9 := by
    by_contra hc
    rw [C60_ten_particles_raise (by omega)] at h
    cases h
  obtain ⟨r3, r4, p3, p4, extra3, e3, -, ep3, -, ex, -, e, -⟩ := generate_parts h
  rw [e, List.mem_append]
  refine or_congr ?_ ?_
  · cases hf : f.restrict3
    · rw [hf] at ep3
      obtain rfl : r3 = p3 := Except.ok.inj ep3
      obtain ⟨L, eL, -, hL⟩ := C110_list h9
      obtain rfl : L = r3 := Except.ok.inj (eL.symm.trans e3)
      rw [hL]
      simp
    · rw [hf, if_pos rfl] at ep3
      obtain ⟨L', eL, -, hL⟩ := C110_restricted h9 e3
      obtain rfl : L' = p3 := Except.ok.inj (eL.symm.trans ep3)
      rw [hL]
      simp
  · by_cases hc : n = 6 ∧ f.noHard = false
    · rw [if_pos hc] at ex
      rw [ex]
      exact ⟨fun h => ⟨hc.1, hc.2, _, rfl, h⟩, fun ⟨_, _, l, e, h⟩ => by cases e; exact h⟩
    · rw [if_neg hc] at ex
      cases ex
      exact ⟨fun h => (by cases h), fun h => absurd ⟨h.1, h.2.1⟩ hc⟩

/-- C114: the strings with two slots are those of all4, restricted or not, and three more exactly at seven points. -/
theorem C114_two_slots (h6 : 6 ≤ n) {ord : SetOrder} (hord : ∀ k l, (ord k l).Perm l) {hard : Except Err (List PStr)} {f : Flags} {r : Key → List PStr}
    (h : generate n ord hard f = .ok r) : ∃ L, all4 n ord = .ok L ∧ ∀ t, t ∈ r 2 ↔
      (∃ sq, ∃ (a d : Fin n) (P Q : Finset (Fin n)), Kept a d P Q ∧ t = fourText sq a d P Q ∧ t ∈ L.map Brk.text ∧ (f.restrict4 = true → TwoNear a P ∧ TwoNear d Q)) ∨
      (n = 7 ∧ t ∈ sevenExtra) := by
  have h9 : n ≤ 9 := by
    by_contra hc
    rw [C60_ten_particles_raise (by omega)] at h
    cases h
  obtain ⟨r3, r4, p3, p4, extra3, e3, e4, -, ep4, -, -, -, e, -⟩ := generate_parts h
  refine ⟨r4, e4, fun t => ?_⟩
  obtain ⟨-, hk, -⟩ := C111_list h6 h9 hord e4
  rw [e, List.mem_append]
  refine or_congr ?_ ?_
  · cases hf : f.restrict4
    · rw [hf] at ep4
      obtain rfl : r4 = p4 := Except.ok.inj ep4
      constructor
      · intro ht
        obtain ⟨sq, a, d, P, Q, hkp, rfl⟩ := hk t ht
        exact ⟨sq, a, d, P, Q, hkp, rfl, ht, fun h => (by cases h)⟩
      · rintro ⟨sq, a, d, P, Q, -, -, ht, -⟩
        exact ht
    · rw [hf, if_pos rfl] at ep4
      have hfu : f.further4 = true := by
        by_contra hfu
        rw [Bool.not_eq_true] at hfu
        obtain ⟨r0, f4, hp, hm, hk0⟩ := reduced_kept h6 h9
        have hn : r0.Nodup := hp.imp fun h => h.1
        rw [all4_eq h6 h9 ord f4] at e4
        have hs := (removeDoubles_splits h6 h9 hord hn (fun b hb => ((hm b).1 hb).1) r0 0 r0 r4 rfl (.refl _) e4).1
        obtain ⟨sq, a, d, P, Q, hkp, es⟩ := (hk0 _).1 ((hm _).2 (shortBrk_good h6 h9))
        have had : a ≠ d := fun e => by
          have h1 := congrArg Brk.a es
          have h2 := congrArg Brk.d es
          simp only [fourBrk, shortBrk, e] at h1 h2
          omega
        rw [← all4_eq h6 h9 ord f4] at e4
        have hm4 := (C111_list h6 h9 hord e4).2.2 sq a d P Q hkp fun e => absurd e had
        rw [mem_texts r4 (fun b hb => (hk0 b).1 (hs.subset hb)) hkp.ne_left hkp.ne_right, ← es] at hm4
        rw [hfu, purge4_raises h6 h9 (hn.sublist hs) hm4] at ep4
        cases ep4
      rw [hfu] at ep4
      obtain ⟨L', eL, hsub, hL⟩ := C114_restricted h6 h9 hord e4
      obtain rfl : L' = p4 := Except.ok.inj (eL.symm.trans ep4)
      constructor
      · intro ht
        have ht' : t ∈ r4.map Brk.text := (hsub.map _).subset ht
        obtain ⟨sq, a, d, P, Q, hkp, rfl⟩ := hk t ht'
        exact ⟨sq, a, d, P, Q, hkp, rfl, ht', fun _ => ((hL sq a d P Q hkp.ne_left hkp.ne_right).1 ht).2⟩
      · rintro ⟨sq, a, d, P, Q, hkp, rfl, ht, hn⟩
        exact (hL sq a d P Q hkp.ne_left hkp.ne_right).2 ⟨ht, hn rfl⟩
  · split
    next h7 => exact ⟨fun h => ⟨h7, h⟩, fun h => h.2⟩
    next h7 => exact ⟨fun h => (by cases h), fun h => absurd h.1 h7⟩

/-- C114: the strings with three slots are those of C113, for every number of particles. -/
theorem C114_three_slots {ord : SetOrder} {hard : Except Err (List PStr)} {f : Flags} {r : Key → List PStr} (h : generate n ord hard f = .ok r) (t : PStr) :
    t ∈ r 3 ↔ ∃ (a : Fin n) (P Q R : List (Fin n)), Parts a P Q R ∧ IsTriple n (a + 1) (named P) (named Q) (named R) ∧ t = sixText a P Q R := by
  obtain ⟨-, -, -, -, -, -, -, -, -, -, -, -, -, e, -⟩ := generate_parts h
  rw [e, ← C113_texts]
  split
  · rfl
  · rw [short_triples (by omega)]; rfl

/-- C114: two-particle brackets, s, Δ, Ω, Π and tr5. -/
theorem C114_others (h6 : 6 ≤ n) {ord : SetOrder} {hard : Except Err (List PStr)} {f : Flags} {r : Key → List PStr} (h : generate n ord hard f = .ok r) (t : PStr) :
    (t ∈ r 0 ↔ ∃ i j, 1 ≤ i ∧ i < j ∧ j ≤ n ∧ (t = twoText '⟨' i j '⟩' ∨ t = twoText '[' i j ']')) ∧
    (t ∈ r 4 → ∃ S ⊆ allLabels n, 3 ≤ S.card ∧ 2 * S.card ≤ n ∧ t = sName S) ∧
    (∀ S ⊆ allLabels n, 3 ≤ S.card → 3 ≤ (allLabels n \ S).card → ∃! T, (T = S ∨ T = allLabels n \ S) ∧ sName T ∈ r 4) ∧
    (t ∈ r 5 ↔ (∃ a b c, (a, b, c) ∈ genDTriples n ∧ t = ['Δ', '_', Nat.digitChar a, Nat.digitChar b, Nat.digitChar c]) ∨ (n = 6 ∧ t ∈ sixExtra)) ∧
    (t ∈ r 6 ↔ n = 6 ∧ t ∈ ["Ω_135", "Ω_351", "Ω_513", "Ω_624", "Ω_246", "Ω_462"].map String.toList) ∧
    (t ∈ r 7 ↔ n = 6 ∧ t ∈ ["Π_135", "Π_351", "Π_513", "Π_624", "Π_246", "Π_462"].map String.toList) ∧
    (t ∈ r 8 ↔ ∃ S ⊆ allLabels (n - 1), S.card = 4 ∧ t = tr5Name S) := by
  have h9 : n ≤ 9 := by
    by_contra hc
    rw [C60_ten_particles_raise (by omega)] at h
    cases h
  obtain ⟨-, -, -, -, -, -, -, -, -, -, e0, -, -, -, e4, e5, e6, e7, e8⟩ := generate_parts h
  refine ⟨?_, ?_, ?_, ?_, ?_, ?_, ?_⟩
  · rw [e0, (C57_two_brackets n).2]
    simp only [show n ≠ 4 by omega, ne_eq, not_false_eq_true, true_and]
  · rw [e4]; exact (C53_mandelstams (by omega)).2.1 t
  · rw [e4]; exact (C53_mandelstams (by omega)).2.2.1
  · rw [e5, List.mem_append, (C56_texts h6 (by omega)).2]
    refine or_congr ⟨fun ⟨a, b, c, h, _, _, _, _, _, _, e⟩ => ⟨a, b, c, h, e⟩, fun ⟨a, b, c, h, e⟩ => ?_⟩ ?_
    · obtain ⟨i, j, k, h1, h2, h3, h4, ht⟩ := mem_genDTriples.1 h
      simp only [dTriple, Prod.mk.injEq] at ht
      obtain ⟨ha, hb, hc⟩ := ht
      split at ha <;> exact ⟨a, b, c, h, by omega, by omega, by omega, by omega, by omega, by omega, e⟩
    · split
      next h7 => exact ⟨fun h => ⟨h7, h⟩, fun h => h.2⟩
      next h7 => exact ⟨fun h => (by cases h), fun h => absurd h.1 h7⟩
  · rw [e6]
    by_cases hn : n = 6
    · subst hn
      have : allO 'Ω' 6 = ["Ω_135", "Ω_351", "Ω_513", "Ω_624", "Ω_246", "Ω_462"].map String.toList := by decide
      rw [this]; simp
    · rw [allO, if_neg hn]; simp [hn]
  · rw [e7]
    by_cases hn : n = 6
    · subst hn
      have : allO 'Π' 6 = ["Π_135", "Π_351", "Π_513", "Π_624", "Π_246", "Π_462"].map String.toList := by decide
      rw [this]; simp
    · rw [allO, if_neg hn]; simp [hn]
  · rw [e8]; exact (C55_tr5 (by omega) (by omega)).2 t

/-- C114 (finding): at seven points a Gram determinant is listed among the strings with two slots, and in no other list: `full_minus_4_brackets` leaves it out. -/
theorem C114_misplaced {ord : SetOrder} (hord : ∀ k l, (ord k l).Perm l) {hard : Except Err (List PStr)} {f : Flags} {r : Key → List PStr}
    (h : generate 7 ord hard f = .ok r) : ∀ k, "Δ_12|347|56".toList ∈ r k ↔ k = 2 := by
  obtain ⟨L, -, h2⟩ := C114_two_slots (n := 7) (by decide) hord h
  have o := C114_others (n := 7) (by decide) h "Δ_12|347|56".toList
  have no : ∀ {t : List Char} {c : Char}, (∃ l, t = c :: l) → c ≠ 'Δ' → "Δ_12|347|56".toList ≠ t := by
    rintro _ c ⟨l, rfl⟩ hc e
    exact hc (List.cons.inj e).1.symm
  intro k
  refine ⟨fun hk => ?_, fun e => e ▸ (h2 _).2 (.inr ⟨rfl, by decide⟩)⟩
  fin_cases k
  · obtain ⟨i, j, -, -, -, e | e⟩ := o.1.1 hk
    · exact absurd e (no ⟨_, rfl⟩ (by decide))
    · exact absurd e (no ⟨_, rfl⟩ (by decide))
  · rcases (C114_one_slot h _).1 hk with ⟨a, d, P, -, e, -⟩ | ⟨e, -⟩
    · exact absurd e (no ⟨_, rfl⟩ (by decide))
    · cases e
  · rfl
  · obtain ⟨a, P, Q, R, -, -, e⟩ := (C114_three_slots h _).1 hk
    exact absurd e (no ⟨_, rfl⟩ (by decide))
  · obtain ⟨S, -, -, -, e⟩ := o.2.1 hk
    exact absurd e (no ⟨_, rfl⟩ (by decide))
  · rcases o.2.2.2.1.1 hk with ⟨a, b, c, -, e⟩ | ⟨e, -⟩
    · exact absurd (congrArg List.length e) (by simp)
    · cases e
  · exact absurd (o.2.2.2.2.1.1 hk).1 (by decide)
  · exact absurd (o.2.2.2.2.2.1.1 hk).1 (by decide)
  · obtain ⟨S, -, -, e⟩ := o.2.2.2.2.2.2.1 hk
    exact absurd e (no ⟨_, rfl⟩ (by decide))

/-- C114: the joined lists. -/
theorem C114_joined (r : Key → List PStr) (t : PStr) :
    (t ∈ invFull r ↔ ∃ k, t ∈ r k) ∧ (t ∈ invFullMinus4 r ↔ ∃ k, k ≠ 2 ∧ t ∈ r k) ∧ (t ∈ invN r ↔ ∃ k, (k = 1 ∨ k = 2 ∨ k = 3) ∧ t ∈ r k) := by
  simp only [invFull, invFullMinus4, invN, List.mem_append]
  refine ⟨⟨?_, ?_⟩, ⟨?_, ?_⟩, ?_, ?_⟩
  · rintro ((((((((h | h) | h) | h) | h) | h) | h) | h) | h) <;> exact ⟨_, h⟩
  · rintro ⟨k, h⟩
    fin_cases k <;> simp_all
  · rintro (((((((h | h) | h) | h) | h) | h) | h) | h) <;> exact ⟨_, by decide, h⟩
  · rintro ⟨k, hk, h⟩
    fin_cases k <;> simp_all
  · rintro ((h | h) | h) <;> exact ⟨_, by decide, h⟩
  · rintro ⟨k, rfl | rfl | rfl, h⟩ <;> simp [h]

end Lips
