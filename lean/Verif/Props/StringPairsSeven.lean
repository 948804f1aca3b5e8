import Verif.Props.StringPairsList

/-!
C111 at seven points: which strings with equal ends and slots without common labels are left when Python traverses its sets in ascending
order. Three such strings have the same value up to sign. They are compared with each other one after the other, and mostly none is left.
-/

namespace Lips

open Finset

variable {n : ℕ}

instance (a d : Fin n) (P Q : Finset (Fin n)) : Decidable (Removed a d P Q) := by unfold Removed; infer_instance
instance (P Q : Finset (Fin n)) : Decidable (LaterSlot P Q) := by unfold LaterSlot; infer_instance

/-! ### Steps in ascending order -/

theorem step_ascending (h6 : 6 ≤ n) (h9 : n ≤ 9) {ord : SetOrder} (hasc : ∀ k l, l.Pairwise (· < ·) → ord k l = l) {copy r : List Brk} {i : ℕ}
    {sq : Bool} {a : Fin n} {P Q : Finset (Fin n)} (hg : GoodBrk n (fourBrk sq a a P Q)) (hd : Disjoint P Q) :
    removeDouble n ord copy i (fourBrk sq a a P Q) r =
      (firstDouble n copy i (fourBrk sq a a P Q) (fourBrk sq a a P (restSet a (P ∪ Q))) r).bind
        (secondStep i copy (fourBrk sq a a (restSet a (P ∪ Q)) Q)) := by
  have asc : ∀ (S : Finset (Fin n)) k, ord k (tx S) = tx S := fun S k => hasc k _ ((labelTexts_lt h9).sublist (tx_sublist S))
  rw [removeDouble_shape h6 h9 hg (m0 := tx P) (m1 := tx Q) rfl rfl (tx_disjoint.2 hd)]
  have e : restOf n (fourBrk sq a a P Q).a (tx P) (tx Q) = tx (restSet a (P ∪ Q)) := tx_rest a P Q
  rw [e]
  simp only [asc]
  rfl

/-- After a step: the first equal string is gone if neither is neighbouring; the string itself is gone if the equal one is neighbouring; the
second equal string is gone if it comes later. -/
theorem step_removes {copy r r' : List Brk} {i : ℕ} {X E F : Brk} (hr : r.Nodup) (h : (firstDouble n copy i X E r).bind (secondStep i copy F) = .ok r') :
    (neigh4 n X = .ok false → neigh4 n E = .ok false → E ∉ r') ∧ (neigh4 n X = .ok false → neigh4 n E = .ok true → E ∈ r' → X ∉ r') ∧
    (i < copy.idxOf F → F ∉ r') := by
  rcases e : firstDouble n copy i X E r with er | r1
  · rw [e] at h; cases h
  rw [e] at h
  change secondStep i copy F r1 = .ok r' at h
  have hs1 : r1.Sublist r := by
    unfold firstDouble at e
    split at e
    · split at e
      · cases e
      · cases e
      · split at e
        · exact pyRemove_sublist e
        · cases e; exact .refl _
      · exact pyRemove_sublist e
      · exact pyRemove_sublist e
      · cases e; exact .refl _
    · cases e; exact .refl _
  obtain ⟨r2, e2, hs2, hm⟩ := secondStep_ok (i := i) (copy := copy) (F := F) (hr.sublist hs1)
  rw [h] at e2
  cases e2
  refine ⟨fun h1 h2 hE => ?_, fun h1 h2 hE hX => ?_, fun hi hF => ((hm _).1 hF).2 ⟨rfl, hi⟩⟩
  · have hE1 := hs2.subset hE
    have hE0 := hs1.subset hE1
    unfold firstDouble at e
    rw [if_pos hE0, h1, h2] at e
    dsimp only at e
    rw [pyRemove_filter hr hE0] at e
    cases e
    exact of_decide_eq_true (List.mem_filter.1 hE1).2 rfl
  · have hX1 := hs2.subset hX
    have hE0 := hs1.subset (hs2.subset hE)
    unfold firstDouble at e
    rw [if_pos hE0, h1, h2] at e
    dsimp only at e
    rw [pyRemove_filter hr (hs1.subset hX1)] at e
    cases e
    exact of_decide_eq_true (List.mem_filter.1 hX1).2 rfl

/-- The place of a slot among the slots beside an end. -/
def place (a : Fin n) (P : Finset (Fin n)) : ℕ := (slotList n (a + 1) 0).idxOf (tx P)

theorem fourBrk_of {b : Brk} {sq : Bool} {a : Fin n} {P Q : Finset (Fin n)} (h : (fourBrk sq a a P Q).first = b.first ∧ (fourBrk sq a a P Q).a = b.a ∧
    (fourBrk sq a a P Q).d = b.d ∧ (fourBrk sq a a P Q).last = b.last) {m0 m1 : List PStr} (em : b.mids = [m0, m1]) {P' Q' : Finset (Fin n)} (h0 : m0 = tx P')
    (h1 : m1 = tx Q') : b = fourBrk sq a a P' Q' := by
  obtain ⟨f, x, ms, y, l⟩ := b
  obtain ⟨e1, e2, e3, e4⟩ := h
  simp only [fourBrk] at *
  subst e1 e2 e3 e4 em h0 h1
  rfl

theorem rest_union {a : Fin n} {P Q : Finset (Fin n)} (h : a ∉ Q) (hd : Disjoint P Q) : restSet a (P ∪ restSet a (P ∪ Q)) = Q := by
  ext k
  simp only [restSet, mem_sdiff, mem_compl, mem_singleton, mem_union]
  constructor
  · rintro ⟨h1, h2⟩
    by_contra h3
    exact h2 (.inr ⟨h1, fun h4 => h4.elim (fun h => h2 (.inl h)) h3⟩)
  · intro hk
    refine ⟨fun e => h (e ▸ hk), ?_⟩
    rintro (h1 | ⟨-, h1⟩)
    · exact disjoint_left.1 hd h1 hk
    · exact h1 (.inr hk)

/-- A neighbouring string whose first slot comes before the third is kept, in whatever order sets are traversed. -/
theorem near_kept (h6 : 6 ≤ n) (h9 : n ≤ 9) {ord : SetOrder} (hord : ∀ k l, (ord k l).Perm l) {copy L : List Brk} (hp : copy.Pairwise (BrkBefore n))
    (hg : ∀ b ∈ copy, GoodBrk n b) (hL : removeDoubles n ord copy 0 copy copy = .ok L) {sq : Bool} {a : Fin n} {P Q : Finset (Fin n)}
    (hY : fourBrk sq a a P Q ∈ copy) (hn : neigh4 n (fourBrk sq a a P Q) = .ok true)
    (hn' : neigh4 n (fourBrk sq a a P (restSet a (P ∪ Q))) = .ok false) (hpl : place a P < place a (restSet a (P ∪ Q))) : fourBrk sq a a P Q ∈ L := by
  have hnd : copy.Nodup := hp.imp fun h => h.1
  refine removeDoubles_keeps (Y := fourBrk sq a a P Q) (fun i b r r' hb hr e hy => ?_) copy 0 copy L rfl (.refl _) hL hY
  refine step_keeps h6 h9 hord hnd hg (List.mem_of_getElem? hb) hr e hy fun m0 m1 em had hdis h0 h1 => ⟨fun e => ?_, fun e hi => ?_, fun _ => hn⟩
  · refine ⟨?_, hn⟩
    have e' := e
    simp only [fourBrk, twinA, Brk.mk.injEq, List.cons.injEq, and_true] at e'
    obtain ⟨e1, e2, ⟨e3, e4⟩, e5, e6⟩ := e'
    have e7 : m1 = tx (restSet a (P ∪ Q)) := by
      rw [← tx_rest, e2, e3, e4]
      exact (rest_rest h1 hdis).symm
    rw [fourBrk_of (sq := sq) (a := a) (P := P) (Q := Q) ⟨e1, e2, e5, e6⟩ em e3.symm e7]
    exact hn'
  · have hbef := getElem_idx_before hp hb hY hi
    have e' := e
    simp only [fourBrk, twinB, Brk.mk.injEq, List.cons.injEq, and_true] at e'
    obtain ⟨e1, e2, ⟨e3, e4⟩, e5, e6⟩ := e'
    have e7 : m0 = tx (restSet a (P ∪ Q)) := by
      rw [union_comm, ← tx_rest, e2, e3, e4, restOf_comm n b.a m0 m1]
      exact (rest_rest h0 hdis.symm).symm
    rw [fourBrk_of (sq := sq) (a := a) (P := P) (Q := Q) ⟨e1, e2, e5, e6⟩ em e7 e4.symm] at hbef
    have := hbef.2 rfl rfl rfl _ _ _ rfl rfl
    exact absurd this (by unfold place at hpl; simp only [fourBrk]; omega)

/-- Three strings with the same value: the third is lost. The first two are lost unless one of them is neighbouring, which is then the only one
left. -/
theorem class_ascending (h6 : 6 ≤ n) (h9 : n ≤ 9) {ord : SetOrder} (hord : ∀ k l, (ord k l).Perm l) (hasc : ∀ k l, l.Pairwise (· < ·) → ord k l = l)
    {copy L : List Brk} (hp : copy.Pairwise (BrkBefore n)) (hg : ∀ b ∈ copy, GoodBrk n b) (hL : removeDoubles n ord copy 0 copy copy = .ok L)
    {sq : Bool} {a : Fin n} {P Q R : Finset (Fin n)} (haQ : a ∉ Q) (hd : Disjoint P Q) (hR : R = restSet a (P ∪ Q))
    (hA : fourBrk sq a a P Q ∈ copy) (hB : fourBrk sq a a P R ∈ copy) (hC : fourBrk sq a a Q R ∈ copy) (hPQ : place a P < place a Q)
    (hPR : place a P < place a R) {tA tB : Bool} (nA : neigh4 n (fourBrk sq a a P Q) = .ok tA) (nB : neigh4 n (fourBrk sq a a P R) = .ok tB)
    (hAB : ¬ (tA = true ∧ tB = true)) :
    (fourBrk sq a a P Q ∈ L ↔ tA = true) ∧ (fourBrk sq a a P R ∈ L ↔ tB = true) ∧ fourBrk sq a a Q R ∉ L := by
  have hnd : copy.Nodup := hp.imp fun h => h.1
  have haR : a ∉ R := hR ▸ rest_away _ _
  have hdR : Disjoint P R := by
    rw [hR, disjoint_left]
    exact fun k hk h => (mem_sdiff.1 h).2 (mem_union_left _ hk)
  have eR : restSet a (P ∪ R) = Q := by rw [hR]; exact rest_union haQ hd
  obtain ⟨hsub, hst⟩ := removeDoubles_splits h6 h9 hord hnd hg copy 0 copy L rfl (.refl _) hL
  -- the step on the first string
  obtain ⟨i, r1, r2, hi, hr1, e, hs⟩ := hst _ hA
  rw [step_ascending h6 h9 hasc (hg _ hA) hd, ← hR] at e
  obtain ⟨a1, a2, -⟩ := step_removes (hnd.sublist hr1) e
  -- the step on the second string
  obtain ⟨j, r3, r4, hj, hr3, e', hs'⟩ := hst _ hB
  rw [step_ascending h6 h9 hasc (hg _ hB) hdR, eR] at e'
  obtain ⟨b1, b2, b3⟩ := step_removes (hnd.sublist hr3) e'
  have hjC : j < copy.idxOf (fourBrk sq a a Q R) := by
    by_contra hcon
    obtain ⟨hlt, hBj⟩ := List.getElem?_eq_some_iff.1 hj
    have hCl := List.idxOf_lt_length_iff.2 hC
    rcases lt_or_eq_of_le (not_lt.1 hcon) with h | h
    · rw [List.pairwise_iff_getElem] at hp
      have := hp _ _ hCl hlt h
      rw [hBj, List.getElem_idxOf] at this
      have := this.2 rfl rfl rfl _ _ _ rfl rfl
      exact absurd this (by unfold place at hPQ; simp only [fourBrk]; omega)
    · have : fourBrk sq a a Q R = fourBrk sq a a P R := by
        rw [← hBj, ← List.getElem_idxOf hCl]
        simp only [h]
      rw [(fourBrk_inj this).2.2.2.1] at hPQ
      exact lt_irrefl _ hPQ
  have keepA : tA = true → tB = false → fourBrk sq a a P Q ∈ L := by
    rintro rfl rfl
    exact near_kept h6 h9 hord hp hg hL hA nA (by rw [← hR]; exact nB) (by rw [← hR]; exact hPR)
  have keepB : tB = true → tA = false → fourBrk sq a a P R ∈ L := by
    rintro rfl rfl
    exact near_kept h6 h9 hord hp hg hL hB nB (by rw [eR]; exact nA) (by rw [eR]; exact hPQ)
  refine ⟨?_, ?_, fun h => b3 hjC (hs'.subset h)⟩
  · cases tA <;> cases tB
    · exact iff_of_false (fun h => b1 nB nA (hs'.subset h)) (by decide)
    · exact iff_of_false (fun h => a2 nA nB (hs.subset (keepB rfl rfl)) (hs.subset h)) (by decide)
    · exact iff_of_true (keepA rfl rfl) rfl
    · exact absurd ⟨rfl, rfl⟩ hAB
  · cases tA <;> cases tB
    · exact iff_of_false (fun h => a1 nA nB (hs.subset h)) (by decide)
    · exact iff_of_true (keepB rfl rfl) rfl
    · exact iff_of_false (fun h => b2 nB nA (hs'.subset (keepA rfl rfl)) (hs'.subset h)) (by decide)
    · exact absurd ⟨rfl, rfl⟩ hAB

/-! ### Seven points -/

/-- Two labels that form an interval together with `a`, seen from `a`. -/
def NearPair (a : Fin 7) (P : Finset (Fin 7)) : Prop := P = {a + 1, a + 2} ∨ P = {a - 1, a + 1} ∨ P = {a - 1, a - 2}

instance (a : Fin 7) (P : Finset (Fin 7)) : Decidable (NearPair a P) := by unfold NearPair; infer_instance

theorem tx_pair {x y : Fin n} (h : x < y) : tx {x, y} = [pyStr ((x : ℕ) + 1), pyStr ((y : ℕ) + 1)] := by
  have e : ({x, y} : Finset (Fin n)).sort (· ≤ ·) = [x, y] := by
    have := (List.toFinset_sort (l := [x, y]) (· ≤ ·) (by simp [h.ne])).2 (by simp [h.le])
    simpa using this
  simp [tx, setList, e]

theorem pair_of {P : Finset (Fin n)} (h : #P = 2) : ∃ x y, x < y ∧ P = {x, y} := by
  obtain ⟨x, y, hne, rfl⟩ := card_eq_two.1 h
  rcases lt_or_gt_of_ne hne with h | h
  · exact ⟨x, y, h, rfl⟩
  · exact ⟨y, x, h, pair_comm _ _⟩

set_option maxRecDepth 100000 in
theorem near_pairs : ∀ a x y : Fin 7, x < y → a ≠ x → a ≠ y →
    (nearHalf 7 ((a : ℕ) + 1 : ℕ) [pyStr ((x : ℕ) + 1), pyStr ((y : ℕ) + 1)]).toOption = some (decide (NearPair a {x, y})) := by
  decide +kernel

set_option maxRecDepth 100000 in
theorem places : ∀ a x y : Fin 7, x < y → a ≠ x → a ≠ y → ∀ z w : Fin 7, z < w → a ≠ z → a ≠ w → ¬ LaterSlot {x, y} ({z, w} : Finset (Fin 7)) →
    Disjoint ({x, y} : Finset (Fin 7)) {z, w} →
    (slotList 7 (a + 1) 0).idxOf [pyStr ((x : ℕ) + 1), pyStr ((y : ℕ) + 1)] < (slotList 7 (a + 1) 0).idxOf [pyStr ((z : ℕ) + 1), pyStr ((w : ℕ) + 1)] := by
  decide +kernel

set_option maxRecDepth 100000 in
/-- What is left for two slots, given the third. -/
theorem seven_facts : ∀ a : Fin 7, ∀ P ∈ powersetCard 2 (univ : Finset (Fin 7)), a ∉ P → ∀ Q ∈ powersetCard 2 (univ : Finset (Fin 7)), a ∉ Q →
    Disjoint P Q → ¬ Removed a a P Q ∧ (LaterSlot P Q ↔ ¬ LaterSlot Q P) ∧ (LaterSlot P Q → ¬ LaterSlot P (restSet a (P ∪ Q)) → ¬ LaterSlot Q (restSet a (P ∪ Q))) ∧
      ¬ (NearPair a P ∧ NearPair a Q ∧ NearPair a (restSet a (P ∪ Q))) ∧
      (¬ LaterSlot P Q → ((¬ LaterSlot P (restSet a (P ∪ Q)) ∧ NearPair a P ∧ NearPair a Q) ↔
        (({P, Q} : Finset (Finset (Fin 7))) = {{a + 1, a + 2}, {a - 1, a - 2}} ∧ a ≠ 3 ∧ a ≠ 4))) := by
  decide +kernel

theorem neigh_seven (sq : Bool) {a : Fin 7} {P Q : Finset (Fin 7)} (h2 : #P = 2) (h2' : #Q = 2) (ha : a ∉ P) (ha' : a ∉ Q) :
    neigh4 7 (fourBrk sq a a P Q) = .ok (decide (NearPair a P ∧ NearPair a Q)) := by
  have half : ∀ {P : Finset (Fin 7)}, #P = 2 → a ∉ P → nearHalf (7 : ℕ) ((a : ℕ) + 1 : ℕ) (tx P) = .ok (decide (NearPair a P)) := by
    intro P h2 ha
    obtain ⟨x, y, hxy, rfl⟩ := pair_of h2
    rw [tx_pair hxy]
    have := near_pairs a x y hxy (fun e => ha (by simp [e])) fun e => ha (by simp [e])
    rcases e : nearHalf (7 : ℕ) ((a : ℕ) + 1 : ℕ) [pyStr ((x : ℕ) + 1), pyStr ((y : ℕ) + 1)] with er | t
    · rw [show nearHalf 7 ((a : ℕ) + 1 : ℕ) [pyStr ((x : ℕ) + 1), pyStr ((y : ℕ) + 1)] = .error er from e] at this; cases this
    · rw [show nearHalf 7 ((a : ℕ) + 1 : ℕ) [pyStr ((x : ℕ) + 1), pyStr ((y : ℕ) + 1)] = .ok t from e] at this
      exact congrArg _ (Option.some.inj this)
  have h0 : nearHalf (7 : ℕ) ((fourBrk sq a a P Q).a : ℕ) (tx P) = _ := half h2 ha
  have h1 : nearHalf (7 : ℕ) ((fourBrk sq a a P Q).d : ℕ) (tx Q) = _ := half h2' ha'
  unfold neigh4
  rw [show (fourBrk sq a a P Q).mids = [tx P, tx Q] from rfl]
  dsimp only
  rw [h0]
  by_cases hP : NearPair a P
  · rw [decide_eq_true hP]
    dsimp only
    rw [h1]
    simp [hP]
  · rw [decide_eq_false hP]
    simp [hP]

theorem place_seven {a : Fin 7} {P Q : Finset (Fin 7)} (h2 : #P = 2) (h2' : #Q = 2) (ha : a ∉ P) (ha' : a ∉ Q) (hd : Disjoint P Q)
    (hl : ¬ LaterSlot P Q) : place a P < place a Q := by
  obtain ⟨x, y, hxy, rfl⟩ := pair_of h2
  obtain ⟨z, w, hzw, rfl⟩ := pair_of h2'
  unfold place
  rw [tx_pair hxy, tx_pair hzw]
  exact places a x y hxy (fun e => ha (by simp [e])) (fun e => ha (by simp [e])) z w hzw (fun e => ha' (by simp [e])) (fun e => ha' (by simp [e])) hl hd

theorem listed_pair {a : Fin 7} {P : Finset (Fin 7)} (h2 : #P = 2) (ha : a ∉ P) : ListedSlot a a P := by
  have hs : P ⊆ others a a := fun k hk => by
    rw [others_self, mem_compl, mem_singleton]
    exact fun e => ha (e ▸ hk)
  refine ⟨hs, h2.ge, .inl ?_⟩
  have := rest_card ha
  rw [others_self]
  unfold restSet at this
  omega

/-- C111 refuted at seven points: when sets are traversed in ascending order, of the strings with equal ends and slots without common labels only
those are left whose slots are the two labels after and the two labels before the end, and not even those for the ends 4 and 5. The others are
lost together with both strings that have the same value. -/
theorem C111_seven_ascending {ord : SetOrder} (hord : ∀ k l, (ord k l).Perm l) (hasc : ∀ k l, l.Pairwise (· < ·) → ord k l = l) :
    ∃ L, all4 7 ord = .ok L ∧ ∀ sq, ∀ (a : Fin 7) (P Q : Finset (Fin 7)), Kept a a P Q → Disjoint P Q →
      (fourText sq a a P Q ∈ L.map Brk.text ↔ ({P, Q} : Finset (Finset (Fin 7))) = {{a + 1, a + 2}, {a - 1, a - 2}} ∧ a ≠ 3 ∧ a ≠ 4) := by
  obtain ⟨r4, e4, hp, hm, hk⟩ := reduced_kept (n := 7) (by decide) (by decide)
  have hg : ∀ b ∈ r4, GoodBrk 7 b := fun b hb => ((hm b).1 hb).1
  have hs : Spared 7 r4 := spared_of_slots (by decide) (by decide) (sparedSlots_seven 7 (by simp)) hg
  obtain ⟨L, er, hsub, -⟩ := removeDoubles_spared (by decide) (by decide) hord hp hg hs r4 0 r4 rfl (.refl _) fun b hb _ => hb
  refine ⟨L, (all4_eq (by decide) (by decide) ord e4).trans er, fun sq a P Q h hd => ?_⟩
  rw [mem_texts L (fun b hb => (hk b).1 (hsub.subset hb)) h.ne_left h.ne_right]
  have haP := h.left.away
  have haQ := h.right.away
  -- the sizes
  have hsz : #P = 2 ∧ #Q = 2 := by
    have c1 := rest_card haP
    have c2 := rest_card haQ
    have c3 := h.left.card
    have c4 := h.right.card
    have c5 := h.left.two
    have c6 := h.right.two
    have hsub : P ⊆ restSet a Q := fun k hk => mem_sdiff.2 ⟨mem_compl.2 fun e => haP (mem_singleton.1 e ▸ hk), fun hq => disjoint_left.1 hd hk hq⟩
    have c7 := card_sdiff_add_card_eq_card hsub
    have n0 : #(restSet a Q \ P) ≠ 0 := fun e => h.stay (.inl ⟨P, by simp, restSet a Q, by simp, .inl (Subset.antisymm hsub (sdiff_eq_empty_iff_subset.1 (card_eq_zero.1 e)))⟩)
    have n1 : #(restSet a Q \ P) ≠ 1 := fun e => h.stay (.inr ⟨rfl, .inr (.inl ⟨hsub, e⟩)⟩)
    omega
  obtain ⟨zP, zQ⟩ := hsz
  set R := restSet a (P ∪ Q) with hR
  have haR : a ∉ R := rest_away _ _
  have haU : a ∉ P ∪ Q := fun h => (mem_union.1 h).elim haP haQ
  have zR : #R = 2 := by
    have := rest_card haU
    rw [card_union_of_disjoint hd, ← hR] at this
    omega
  have dPR : Disjoint P R := disjoint_left.2 fun k hk h => (mem_sdiff.1 h).2 (mem_union_left _ hk)
  have dQR : Disjoint Q R := disjoint_left.2 fun k hk h => (mem_sdiff.1 h).2 (mem_union_right _ hk)
  have facts : ∀ {X Y : Finset (Fin 7)}, #X = 2 → #Y = 2 → a ∉ X → a ∉ Y → Disjoint X Y → _ := fun {X Y} hX hY aX aY hd =>
    seven_facts a X (mem_powersetCard.2 ⟨subset_univ _, hX⟩) aX Y (mem_powersetCard.2 ⟨subset_univ _, hY⟩) aY hd
  have mem : ∀ {X Y : Finset (Fin 7)}, #X = 2 → #Y = 2 → a ∉ X → a ∉ Y → Disjoint X Y → ¬ LaterSlot X Y → fourBrk sq a a X Y ∈ r4 := by
    intro X Y hX hY aX aY hd hl
    refine (hk _).2 ⟨sq, a, a, X, Y, ⟨le_refl _, listed_pair hX aX, listed_pair hY aY, fun e => ?_, fun _ => hl, (facts hX hY aX aY hd).1⟩, rfl⟩
    subst e
    rw [disjoint_self_iff_empty] at hd
    rw [hd] at hX
    cases hX
  have main : ∀ {X Y Z : Finset (Fin 7)}, #X = 2 → #Y = 2 → #Z = 2 → a ∉ X → a ∉ Y → a ∉ Z → Disjoint X Y → Disjoint X Z → Disjoint Y Z →
      Z = restSet a (X ∪ Y) → ¬ LaterSlot X Y → ¬ LaterSlot X Z → ¬ LaterSlot Y Z →
      (fourBrk sq a a X Y ∈ L ↔ NearPair a X ∧ NearPair a Y) ∧ (fourBrk sq a a X Z ∈ L ↔ NearPair a X ∧ NearPair a Z) ∧ fourBrk sq a a Y Z ∉ L := by
    intro X Y Z zX zY zZ aX aY aZ dXY dXZ dYZ hZ lXY lXZ lYZ
    have := class_ascending (n := 7) (by decide) (by decide) hord hasc hp hg er (sq := sq) aY dXY hZ (mem zX zY aX aY dXY lXY) (mem zX zZ aX aZ dXZ lXZ)
      (mem zY zZ aY aZ dYZ lYZ) (place_seven zX zY aX aY dXY lXY) (place_seven zX zZ aX aZ dXZ lXZ) (neigh_seven sq zX zY aX aY) (neigh_seven sq zX zZ aX aZ)
      (fun hc => (facts zX zY aX aY dXY).2.2.2.1 (by
        rw [decide_eq_true_eq, decide_eq_true_eq] at hc
        rw [← hZ]
        exact ⟨hc.1.1, hc.1.2, hc.2.2⟩))
    simpa only [decide_eq_true_eq] using this
  have f := facts zP zQ haP haQ hd
  rw [← f.2.2.2.2 (h.order rfl), ← hR]
  have lPQ := h.order rfl
  have fPR := facts zP zR haP haR dPR
  have fQR := facts zQ zR haQ haR dQR
  have eQ : Q = restSet a (P ∪ R) := (rest_union haQ hd).symm
  by_cases hPR : LaterSlot P R
  · -- the third slot comes first
    have hRP : ¬ LaterSlot R P := fPR.2.1.1 hPR
    have hRQ : ¬ LaterSlot R Q := by
      have h1 := fPR.2.2.1 hPR
      rw [← eQ] at h1
      exact h1 lPQ
    have := (main zR zP zQ haR haP haQ dPR.symm dQR.symm hd (by rw [union_comm]; exact eQ) hRP hRQ lPQ).2.2
    exact iff_of_false this fun hc => hc.1 hPR
  · by_cases hQR : LaterSlot Q R
    · have hRQ : ¬ LaterSlot R Q := fQR.2.1.1 hQR
      have := (main zP zR zQ haP haR haQ dPR hd dQR.symm eQ hPR lPQ hRQ).2.1
      rw [this]
      exact ⟨fun h => ⟨hPR, h⟩, fun h => h.2⟩
    · have := (main zP zQ zR haP haQ haR hd dPR dQR hR lPQ hPR hQR).1
      rw [this]
      exact ⟨fun h => ⟨hPR, h⟩, fun h => h.2⟩

end Lips
