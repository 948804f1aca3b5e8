import Verif.Props.StringTripleList

/-!
C113: the texts of the strings with three slots and their values.
-/

namespace Lips

open Finset

variable {K : Type*} [Field K] {n : ℕ}

/-- The labels of a list of particles. -/
def named (P : List (Fin n)) : List ℕ := P.map fun k : Fin n => (k : ℕ) + 1

theorem exists_named : ∀ {l : List ℕ}, (∀ x ∈ l, 1 ≤ x ∧ x ≤ n) → ∃ P : List (Fin n), named P = l
  | [], _ => ⟨[], rfl⟩
  | x :: l, h => by
    obtain ⟨P, e⟩ := exists_named (l := l) fun y hy => h y (by simp [hy])
    have := h x (by simp)
    refine ⟨⟨x - 1, by omega⟩ :: P, ?_⟩
    simp only [named, List.map_cons, List.cons.injEq] at e ⊢
    exact ⟨by omega, e⟩

theorem mem_named {P : List (Fin n)} {k : Fin n} : (k : ℕ) + 1 ∈ named P ↔ k ∈ P := by
  rw [named, List.mem_map]
  constructor
  · rintro ⟨j, hj, e⟩
    obtain rfl : j = k := Fin.ext (by omega)
    exact hj
  · exact fun h => ⟨k, h, rfl⟩

theorem named_nodup {P : List (Fin n)} (h : (named P).Nodup) : P.Nodup := List.Nodup.of_map _ h

theorem sixText_named (a : Fin n) {P Q R : List (Fin n)} (hP : P ≠ []) (hQ : Q ≠ []) (hR : R ≠ []) :
    fiveText ((a : ℕ) + 1, named P, named Q, named R) = sixText a P Q R := by
  have body : ∀ {P : List (Fin n)}, P ≠ [] → ['+'].intercalate ((named P).map pyStr) = slotBody (P.map fun k : Fin n => (true, (k : ℕ) + 1)) := by
    intro P hP
    obtain ⟨x, xs, rfl⟩ := List.exists_cons_of_ne_nil hP
    rw [named, List.map_cons, intercalate_plus]
    simp [Function.comp_def]
  unfold fiveText sixText
  simp only [body hP, body hQ, body hR]
  generalize P.map (fun k : Fin n => (true, (k : ℕ) + 1)) = m1
  generalize Q.map (fun k : Fin n => (true, (k : ℕ) + 1)) = m2
  generalize R.map (fun k : Fin n => (true, (k : ℕ) + 1)) = m3
  simp [stringText, slotText, List.intercalate, List.intersperse]

/-- C113: different strings have different texts. -/
theorem sixText_inj {a a' : Fin n} {P Q R P' Q' R' : List (Fin n)} (hP : P ≠ []) (hQ : Q ≠ []) (hR : R ≠ []) (hP' : P' ≠ []) (hQ' : Q' ≠ []) (hR' : R' ≠ [])
    (h : sixText a P Q R = sixText a' P' Q' R') : a = a' ∧ P = P' ∧ Q = Q' ∧ R = R' := by
  have e : ∀ (a : Fin n) (P Q R : List (Fin n)), sixText a P Q R = stringText '⟨' (a + 1)
      ([(true, P.map fun k => (true, k)), (true, Q.map fun k => (true, k)), (true, R.map fun k => (true, k))].map slotOf) (a + 1) ']' := by
    intro a P Q R
    simp only [sixText, slotOf, List.map_cons, List.map_nil, List.map_map]
    rfl
  have w : ∀ {P Q R : List (Fin n)}, P ≠ [] → Q ≠ [] → R ≠ [] → ∀ s ∈ [(true, P.map fun k => (true, k)), (true, Q.map fun k => (true, k)), (true, R.map fun k => (true, k))],
      SlotWritten (n := n) s.2 := fun hP hQ hR => by
    simpa using ⟨list_written hP, list_written hQ, list_written hR⟩
  have c := fun (a : Fin n) {P Q R : List (Fin n)} (hP : P ≠ []) (hQ : Q ≠ []) (hR : R ≠ []) =>
    classify_string '⟨' (a + 1) ([(true, P.map fun k => (true, k)), (true, Q.map fun k => (true, k)), (true, R.map fun k => (true, k))].map slotOf) (a + 1) ']' (by decide)
      (by decide) (by simp) (slotsOf_ne _ (w hP hQ hR))
  rw [e, e] at h
  have := (c a hP hQ hR).symm.trans ((congrArg classify h).trans (c a' hP' hQ' hR'))
  simp only [Form.string.injEq, List.map_cons, List.map_nil, List.cons.injEq, and_true, true_and] at this
  obtain ⟨h1, ⟨h2, h3, h4⟩, -⟩ := this
  have rd : ∀ {P P' : List (Fin n)}, P ≠ [] → P' ≠ [] → slotText (slotOf (true, P.map fun k => (true, k))) = slotText (slotOf (true, P'.map fun k => (true, k))) → P = P' := by
    intro P P' hP hP' h
    have r := (readSlot_ok (true, P.map fun k => (true, k)) (list_written hP)).symm.trans
      ((congrArg (readSlot n) h).trans (readSlot_ok (true, P'.map fun k => (true, k)) (list_written hP')))
    have := congrArg (List.map Prod.snd) (Except.ok.inj r)
    simpa [List.map_map, Function.comp_def] using this
  exact ⟨Fin.ext (by have := pyStr_inj h1; omega), rd hP hP' h2, rd hQ hQ' h3, rd hR hR' h4⟩

/-- The label and the slots are all particles, each once, and no slot is empty. -/
structure Parts (a : Fin n) (P Q R : List (Fin n)) : Prop where
  neP : P ≠ []
  neQ : Q ≠ []
  neR : R ≠ []
  all : (a :: (P ++ Q ++ R)).Nodup
  cover : ∀ k : Fin n, k ∈ a :: (P ++ Q ++ R)

theorem Parts.rotate {a : Fin n} {P Q R : List (Fin n)} (h : Parts a P Q R) : Parts a Q R P := by
  have hp : (a :: (Q ++ R ++ P)).Perm (a :: (P ++ Q ++ R)) := by
    refine List.Perm.cons a ?_
    rw [List.append_assoc P Q R]
    exact List.perm_append_comm
  exact ⟨h.neQ, h.neR, h.neP, hp.nodup_iff.2 h.all, fun k => hp.mem_iff.2 (h.cover k)⟩

/-- Every generated string is the text of such a division, with the three arcs in their order around the circle. -/
theorem steps_parts {a : Fin n} {p q r : ℕ} (hp : 2 ≤ p) (hq : 2 ≤ q) (hr : 2 ≤ r) (hn : p + q + r + 1 = n) : ∃ P Q R : List (Fin n), Parts a P Q R ∧
    named P = steps n (a + 1) 1 p ∧ named Q = steps n (a + 1) (1 + p) q ∧ named R = steps n (a + 1) (1 + p + q) r := by
  have ha : 1 ≤ (a : ℕ) + 1 := by omega
  have ha' : (a : ℕ) + 1 ≤ n := a.2
  obtain ⟨P, eP⟩ := exists_named (n := n) fun x (hx : x ∈ steps n (a + 1) 1 p) => steps_range ha ha' (by omega) hx
  obtain ⟨Q, eQ⟩ := exists_named (n := n) fun x (hx : x ∈ steps n (a + 1) (1 + p) q) => steps_range ha ha' (by omega) hx
  obtain ⟨R, eR⟩ := exists_named (n := n) fun x (hx : x ∈ steps n (a + 1) (1 + p + q) r) => steps_range ha ha' (by omega) hx
  have ne : ∀ {P : List (Fin n)} {s len : ℕ}, named P = steps n (a + 1) s len → 2 ≤ len → P ≠ [] := by
    rintro P s len e h rfl
    have := congrArg List.length e
    rw [steps_length] at this
    simp [named] at this
    omega
  have hall : named (P ++ Q ++ R) = steps n (a + 1) 1 (n - 1) := by
    rw [named, List.map_append, List.map_append]
    change named P ++ named Q ++ named R = _
    rw [eP, eQ, eR, steps_append, add_assoc 1 p q, steps_append]
    congr 1
    omega
  have hnd : (a :: (P ++ Q ++ R)).Nodup := by
    rw [List.nodup_cons]
    refine ⟨fun h => ?_, named_nodup (hall ▸ steps_nodup (by omega))⟩
    have h := mem_named.2 h
    rw [hall] at h
    exact steps_other le_rfl (by omega) h rfl
  refine ⟨P, Q, R, ⟨ne eP hp, ne eQ hq, ne eR hr, hnd, fun k => ?_⟩, eP, eQ, eR⟩
  have hlen : (a :: (P ++ Q ++ R)).length = n := by
    have := congrArg List.length hall
    rw [named, List.length_map, steps_length] at this
    rw [List.length_cons, this]
    omega
  have hc : (a :: (P ++ Q ++ R)).toFinset = univ := by
    rw [← card_eq_iff_eq_univ, List.toFinset_card_of_nodup hnd, hlen, Fintype.card_fin]
  rw [← List.mem_toFinset, hc]
  exact mem_univ k

/-- C113: every generated text is ⟨a|(P)|(Q)|(R)|a] with three arcs of at least two labels in cyclic order, which with a make up all labels; and every such text is generated. -/
theorem C113_texts (t : List Char) : t ∈ (gen5 n).map fiveText ↔ ∃ (a : Fin n) (P Q R : List (Fin n)), Parts a P Q R ∧ IsTriple n (a + 1) (named P) (named Q) (named R) ∧
    t = sixText a P Q R := by
  rw [List.mem_map]
  constructor
  · rintro ⟨⟨i, m1, m2, m3⟩, hm, rfl⟩
    obtain ⟨hi, hi', hT⟩ := C113_list.1 hm
    obtain ⟨a, rfl⟩ : ∃ a : Fin n, (a : ℕ) + 1 = i := ⟨⟨i - 1, by omega⟩, by simp; omega⟩
    obtain ⟨p, q, r, hp, hq, hr, hn, h⟩ := id hT
    obtain ⟨P, Q, R, hd, eP, eQ, eR⟩ := steps_parts (a := a) hp hq hr hn
    rw [← eP, ← eQ, ← eR] at h
    rcases h with ⟨rfl, rfl, rfl⟩ | ⟨rfl, rfl, rfl⟩ | ⟨rfl, rfl, rfl⟩
    · exact ⟨a, P, Q, R, hd, hT, sixText_named a hd.neP hd.neQ hd.neR⟩
    · exact ⟨a, R, P, Q, hd.rotate.rotate, hT, sixText_named a hd.neR hd.neP hd.neQ⟩
    · exact ⟨a, Q, R, P, hd.rotate, hT, sixText_named a hd.neQ hd.neR hd.neP⟩
  · rintro ⟨a, P, Q, R, hd, hT, rfl⟩
    exact ⟨_, C113_list.2 ⟨by omega, a.2, hT⟩, sixText_named a hd.neP hd.neQ hd.neR⟩

/-- C113: no text is generated twice. -/
theorem C113_texts_once (n : ℕ) : ((gen5 n).map fiveText).Nodup := by
  refine List.Nodup.map_on (fun x hx y hy h => ?_) (C113_once n)
  have back : ∀ t ∈ gen5 n, ∃ (a : Fin n) (P Q R : List (Fin n)), P ≠ [] ∧ Q ≠ [] ∧ R ≠ [] ∧ t = ((a : ℕ) + 1, named P, named Q, named R) := by
    rintro ⟨i, m1, m2, m3⟩ hm
    obtain ⟨hi, hi', p, q, r, hp, hq, hr, hn, h⟩ := C113_list.1 hm
    obtain ⟨a, rfl⟩ : ∃ a : Fin n, (a : ℕ) + 1 = i := ⟨⟨i - 1, by omega⟩, by simp; omega⟩
    obtain ⟨P, Q, R, hd, eP, eQ, eR⟩ := steps_parts (a := a) hp hq hr hn
    rw [← eP, ← eQ, ← eR] at h
    rcases h with ⟨rfl, rfl, rfl⟩ | ⟨rfl, rfl, rfl⟩ | ⟨rfl, rfl, rfl⟩
    · exact ⟨a, P, Q, R, hd.neP, hd.neQ, hd.neR, rfl⟩
    · exact ⟨a, R, P, Q, hd.neR, hd.neP, hd.neQ, rfl⟩
    · exact ⟨a, Q, R, P, hd.neQ, hd.neR, hd.neP, rfl⟩
  obtain ⟨a, P, Q, R, hP, hQ, hR, rfl⟩ := back x hx
  obtain ⟨a', P', Q', R', hP', hQ', hR', rfl⟩ := back y hy
  rw [sixText_named a hP hQ hR, sixText_named a' hP' hQ' hR'] at h
  obtain ⟨rfl, rfl, rfl, rfl⟩ := sixText_inj hP hQ hR hP' hQ' hR' h
  rfl

theorem Parts.facts {a : Fin n} {P Q R : List (Fin n)} (h : Parts a P Q R) : a ∉ P.toFinset ∧ a ∉ Q.toFinset ∧ a ∉ R.toFinset ∧ Disjoint P.toFinset Q.toFinset ∧
    Disjoint P.toFinset R.toFinset ∧ Disjoint Q.toFinset R.toFinset ∧ insert a (P.toFinset ∪ Q.toFinset ∪ R.toFinset) = univ := by
  obtain ⟨h1, h2⟩ := List.nodup_cons.1 h.all
  rw [List.mem_append, List.mem_append] at h1
  obtain ⟨h3, h4, h5⟩ := List.nodup_append.1 h2
  obtain ⟨h6, h7, h8⟩ := List.nodup_append.1 h3
  have dis : ∀ {A B : List (Fin n)}, (∀ x ∈ A, ∀ y ∈ B, x ≠ y) → Disjoint A.toFinset B.toFinset := fun h => by
    rw [Finset.disjoint_left]
    exact fun x hx hx' => h x (List.mem_toFinset.1 hx) x (List.mem_toFinset.1 hx') rfl
  refine ⟨fun h => h1 (.inl (.inl (List.mem_toFinset.1 h))), fun h => h1 (.inl (.inr (List.mem_toFinset.1 h))), fun h => h1 (.inr (List.mem_toFinset.1 h)),
    dis h8, dis fun x hx => h5 x (List.mem_append.2 (.inl hx)), dis fun x hx => h5 x (List.mem_append.2 (.inr hx)), ?_⟩
  ext k
  have := h.cover k
  simpa [or_assoc] using this

theorem Parts.nodups {a : Fin n} {P Q R : List (Fin n)} (h : Parts a P Q R) : P.Nodup ∧ Q.Nodup ∧ R.Nodup := by
  obtain ⟨-, h2⟩ := List.nodup_cons.1 h.all
  obtain ⟨h3, h4, -⟩ := List.nodup_append.1 h2
  obtain ⟨h6, h7, -⟩ := List.nodup_append.1 h3
  exact ⟨h6, h7, h4⟩

/-- C113: at a point that conserves momentum a generated string is a difference of products of s. -/
theorem C113_generated {c : Ctx K} {ps : Point K n} {r l : Fin n → V2 K} (h : Spin c ps r l) (hz : SumZero r l) {t : List Char} (ht : t ∈ (gen5 n).map fiveText) :
    ∃ (a : Fin n) (P Q R : List (Fin n)), Parts a P Q R ∧ t = sixText a P Q R ∧ ∀ fuel, computeText ps fuel t = some (.ok (.num
      (sVal r l P.toFinset * sVal r l R.toFinset - sVal r l (insert a P.toFinset) * sVal r l (insert a R.toFinset)))) := by
  obtain ⟨a, P, Q, R, hd, -, rfl⟩ := (C113_texts t).1 ht
  obtain ⟨f1, f2, f3, f4, f5, f6, f7⟩ := hd.facts
  obtain ⟨n1, n2, n3⟩ := hd.nodups
  exact ⟨a, P, Q, R, hd, rfl, fun fuel => by rw [C113_value h fuel a hd.neP hd.neQ hd.neR n1 n2 n3, C113_mandelstams hz f1 f2 f3 f4 f5 f6 f7]⟩

/-- C113: and no value is missing: whatever the order of the three arcs, a generated string has the same value. -/
theorem C113_complete {c : Ctx K} {ps : Point K n} {r l : Fin n → V2 K} (h : Spin c ps r l) (hz : SumZero r l) {a : Fin n} {P Q R : List (Fin n)} (hd : Parts a P Q R)
    (hT : IsTriple n (a + 1) (named P) (named Q) (named R) ∨ IsTriple n (a + 1) (named R) (named Q) (named P)) :
    ∃ t ∈ (gen5 n).map fiveText, ∀ fuel, computeText ps fuel t = computeText ps fuel (sixText a P Q R) := by
  obtain ⟨f1, f2, f3, f4, f5, f6, f7⟩ := hd.facts
  obtain ⟨n1, n2, n3⟩ := hd.nodups
  rcases hT with hT | hT
  · exact ⟨_, (C113_texts _).2 ⟨a, P, Q, R, hd, hT, rfl⟩, fun _ => rfl⟩
  · have hd' : Parts a R Q P := by
      have hp : (a :: (R ++ Q ++ P)).Perm (a :: (P ++ Q ++ R)) := by
        refine List.Perm.cons a ?_
        rw [List.append_assoc]
        exact (List.Perm.append_left R List.perm_append_comm).trans List.perm_append_comm
      exact ⟨hd.neR, hd.neQ, hd.neP, hp.nodup_iff.2 hd.all, fun k => hp.mem_iff.2 (hd.cover k)⟩
    refine ⟨_, (C113_texts _).2 ⟨a, R, Q, P, hd', hT, rfl⟩, fun fuel => ?_⟩
    rw [C113_value h fuel a hd.neP hd.neQ hd.neR n1 n2 n3, C113_value h fuel a hd.neR hd.neQ hd.neP n3 n2 n1, C113_reverse hz f1 f2 f3 f4 f5 f6 f7]

end Lips
