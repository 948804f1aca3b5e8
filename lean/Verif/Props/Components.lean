import Verif.Lemmas.Components
import Mathlib.RingTheory.Localization.FractionRing
import Mathlib.Algebra.MvPolynomial.CommRing

/-!
C76 and C84: all components of a point are written from a dictionary, read into one, and replaced by symbols.
-/

namespace Lips

open Matrix

set_option linter.unusedSectionVars false

variable {K : Type*} [Field K] {n : ℕ}

/-- The letter of component `j`: the right spinor is `(a, b)`, the left one `(c, d)`. -/
def SpecLetter (j : Fin 4) : Char := ['a', 'b', 'c', 'd'].get j

theorem specLetter_inj {i j : Fin 4} (h : SpecLetter i = SpecLetter j) : i = j := by
  revert h; fin_cases i <;> fin_cases j <;> decide

/-! ### Loops -/

theorem updateLoop_ok (c : Ctx K) (d : Dict K) (v : Fin n → Fin 4 → K)
    (h : ∀ (k : Fin n) (j : Fin 4), d (symbolName (SpecLetter j) k) = some (v k j)) (ks : List (Fin n)) (ps : Point K n) :
    updateLoop c d ks ps = .ok (assign (fun k => (ofSpinors c ![v k 0, v k 1] ![v k 2, v k 3]).st) ks ps) := by
  induction ks generalizing ps with
  | nil => rfl
  | cons k ks ih =>
    have ha : d (symbolName 'a' k) = some (v k 0) := h k 0
    have hb : d (symbolName 'b' k) = some (v k 1) := h k 1
    have hc : d (symbolName 'c' k) = some (v k 2) := h k 2
    have hd : d (symbolName 'd' k) = some (v k 3) := h k 3
    simp only [updateLoop, ha, hb, hc, hd]
    rw [setRd_of_l c _ ![v k 2, v k 3] rfl rfl]
    simp only [store_ok]
    rw [ih, ← assign_cons]

theorem updateLoop_keyError (c : Ctx K) (d : Dict K) (ks : List (Fin n)) (ps : Point K n) {k : Fin n} (hk : k ∈ ks)
    {j : Fin 4} (h : d (symbolName (SpecLetter j) k) = none) : updateLoop c d ks ps = .error .keyError := by
  induction ks generalizing ps with
  | nil => cases hk
  | cons k' ks ih =>
    rw [updateLoop]
    rcases hc : d (symbolName 'c' k') with _ | c₀
    · rfl
    rcases hd : d (symbolName 'd' k') with _ | d₀
    · rfl
    rcases ha : d (symbolName 'a' k') with _ | a₀
    · rfl
    rcases hb : d (symbolName 'b' k') with _ | b₀
    · rfl
    simp only
    rw [setRd_of_l c _ ![c₀, d₀] rfl rfl]
    simp only [store_ok]
    rcases List.mem_cons.mp hk with e | hk
    · subst e; exfalso
      fin_cases j
      · exact absurd (ha.symm.trans h) (by simp)
      · exact absurd (hb.symm.trans h) (by simp)
      · exact absurd (hc.symm.trans h) (by simp)
      · exact absurd (hd.symm.trans h) (by simp)
    · exact ih _ hk

/-- What the reading loop makes of a dictionary. -/
theorem subsDictLoop_ok (ps : Point K n) (v : Fin n → Fin 4 → K)
    (hr : ∀ k, (ps k).r_d = some ![v k 0, v k 1]) (hl : ∀ k, (ps k).l_d = some ![v k 2, v k 3])
    (ks : List (Fin n)) (d : Dict K) : ∃ d', subsDictLoop ps ks d = .ok d' ∧
      (∀ k ∈ ks, ∀ j, d' (symbolName (SpecLetter j) k) = some (v k j)) ∧
      ∀ key, (∀ k ∈ ks, ∀ j, key ≠ symbolName (SpecLetter j) k) → d' key = d key := by
  induction ks generalizing d with
  | nil => exact ⟨d, rfl, by simp, fun _ _ => rfl⟩
  | cons k ks ih =>
    simp only [subsDictLoop, hr, hl]
    generalize hD : ((((d.insert (symbolName 'a' k) (![v k 0, v k 1] 0)).insert (symbolName 'b' k) (![v k 0, v k 1] 1)).insert
      (symbolName 'c' k) (![v k 2, v k 3] 0)).insert (symbolName 'd' k) (![v k 2, v k 3] 1)) = D
    obtain ⟨d', e, h1, h2⟩ := ih D
    refine ⟨d', e, ?_, ?_⟩
    · intro k' hk' j
      by_cases hm : k' ∈ ks
      · exact h1 k' hm j
      · rcases List.mem_cons.mp hk' with rfl | h'
        · rw [h2 _ fun k₁ hk₁ j₁ e₁ => hm (by rw [Fin.ext (symbolName_inj e₁).2]; exact hk₁), ← hD]
          have ne : ∀ {a b : Char}, a ≠ b → ∀ i : ℕ, symbolName a i ≠ symbolName b i := fun h i e => h (symbolName_inj e).1
          fin_cases j
          · change Dict.insert _ _ _ (symbolName 'a' k') = _
            simp [Dict.insert, ne (show ('a' : Char) ≠ 'd' by decide), ne (show ('a' : Char) ≠ 'c' by decide),
              ne (show ('a' : Char) ≠ 'b' by decide)]
          · change Dict.insert _ _ _ (symbolName 'b' k') = _
            simp [Dict.insert, ne (show ('b' : Char) ≠ 'd' by decide), ne (show ('b' : Char) ≠ 'c' by decide)]
          · change Dict.insert _ _ _ (symbolName 'c' k') = _
            simp [Dict.insert, ne (show ('c' : Char) ≠ 'd' by decide)]
          · change Dict.insert _ _ _ (symbolName 'd' k') = _
            simp [Dict.insert]
        · exact absurd h' hm
    · intro key hkey
      rw [h2 key fun k' hk' j => hkey k' (List.mem_cons_of_mem _ hk') j, ← hD]
      have a := hkey k List.mem_cons_self 0
      have b := hkey k List.mem_cons_self 1
      have c := hkey k List.mem_cons_self 2
      have d := hkey k List.mem_cons_self 3
      change key ≠ symbolName 'a' k at a
      change key ≠ symbolName 'b' k at b
      change key ≠ symbolName 'c' k at c
      change key ≠ symbolName 'd' k at d
      simp [Dict.insert, a, b, c, d]

theorem vec2_eta (r : V2 K) : r = ![r 0, r 1] := by funext i; fin_cases i <;> rfl

/-- The components of a point as a table. -/
def compsOf (r l : Fin n → V2 K) (k : Fin n) : Fin 4 → K := ![r k 0, r k 1, l k 0, l k 1]

theorem analyticOne_ok (c : Ctx K) (r l : V2 K) (m : Fin 4 → ℤ) (s : Fin 4 → K) :
    analyticOne c (ofSpinors c r l).st m s = ⟨(ofSpinors c
      ![if m 0 = 0 then s 0 else r 0, if m 1 = 0 then s 1 else r 1]
      ![if m 2 = 0 then s 2 else l 0, if m 3 = 0 then s 3 else l 1]).st, none⟩ := by
  simp only [analyticOne, (ofSpinors_fields c r l).1, (ofSpinors_fields c r l).2.1]
  rw [rebuild_all]

theorem analyticLoop_ok (c : Ctx K) (mask : List ℤ) (s : Fin n → Fin 4 → K) (m : Fin n → Fin 4 → ℤ)
    (hm : ∀ k : Fin n, maskOf mask k = some (m k)) (r l : Fin n → V2 K) (ks : List (Fin n)) (hk : ks.Nodup) (ps : Point K n)
    (hp : ∀ k ∈ ks, ps k = (ofSpinors c (r k) (l k)).st) :
    analyticLoop c mask s ks ps = .ok (assign (fun k => (ofSpinors c
      ![if m k 0 = 0 then s k 0 else r k 0, if m k 1 = 0 then s k 1 else r k 1]
      ![if m k 2 = 0 then s k 2 else l k 0, if m k 3 = 0 then s k 3 else l k 1]).st) ks ps) := by
  induction ks generalizing ps with
  | nil => rfl
  | cons k ks ih =>
    rw [List.nodup_cons] at hk
    simp only [analyticLoop, hm, hp k List.mem_cons_self, analyticOne_ok, store_ok]
    rw [ih hk.2, ← assign_cons]
    intro k' hk'
    rw [Function.update_of_ne (by rintro rfl; exact hk.1 hk')]
    exact hp k' (List.mem_cons_of_mem _ hk')

theorem maskOf_eq {mask : List ℤ} {k : ℕ} {m : Fin 4 → ℤ} :
    maskOf mask k = some m ↔ ∀ j : Fin 4, mask[k * 4 + (j : ℕ)]? = some (m j) := by
  have fin4 : ∀ {P : Fin 4 → Prop}, (∀ j, P j) ↔ P 0 ∧ P 1 ∧ P 2 ∧ P 3 := by
    intro P; constructor
    · intro h; exact ⟨h 0, h 1, h 2, h 3⟩
    · rintro ⟨a, b, c, d⟩ j; fin_cases j <;> assumption
  rw [fin4]
  unfold maskOf
  change _ ↔ mask[k * 4 + 0]? = some (m 0) ∧ mask[k * 4 + 1]? = some (m 1) ∧ mask[k * 4 + 2]? = some (m 2) ∧
    mask[k * 4 + 3]? = some (m 3)
  generalize mask[k * 4 + 0]? = A
  generalize mask[k * 4 + 1]? = B
  generalize mask[k * 4 + 2]? = C
  generalize mask[k * 4 + 3]? = D
  rcases A with _ | a
  · simp
  rcases B with _ | b
  · simp
  rcases C with _ | c
  · simp
  rcases D with _ | d
  · simp
  simp only [Option.some.injEq]
  constructor
  · rintro rfl; exact ⟨rfl, rfl, rfl, rfl⟩
  · rintro ⟨rfl, rfl, rfl, rfl⟩; funext j; fin_cases j <;> rfl

theorem subsLoop_ok (c : Ctx K) (f : K → K) (r l : Fin n → V2 K) (ks : List (Fin n)) (hk : ks.Nodup) (ps : Point K n)
    (hp : ∀ k ∈ ks, ps k = (ofSpinors c (r k) (l k)).st) :
    subsLoop c f ks ps =
      .ok (assign (fun k => (ofSpinors c ![f (r k 0), f (r k 1)] ![f (l k 0), f (l k 1)]).st) ks ps) := by
  induction ks generalizing ps with
  | nil => rfl
  | cons k ks ih =>
    rw [List.nodup_cons] at hk
    simp only [subsLoop, hp k List.mem_cons_self, (ofSpinors_fields c _ _).1, setRd_ofSpinors, store_ok, Function.update_self,
      (ofSpinors_fields c _ _).2.1, setLd_ofSpinors, Function.update_idem]
    rw [ih hk.2, ← assign_cons]
    intro k' hk'
    rw [Function.update_of_ne (by rintro rfl; exact hk.1 hk')]
    exact hp k' (List.mem_cons_of_mem _ hk')

/-! ### The properties -/

/-- C76, first part: from any point whatsoever, writing a dictionary that has all the components gives
massless consistent particles with these components, and reading them gives back the entries of the
dictionary, and no others. -/
theorem C76_write_then_read [NeZero (2 : K)] (c : Ctx K) (ps : Point K n) (d : Dict K) (v : Fin n → Fin 4 → K)
    (h : ∀ (k : Fin n) (j : Fin 4), d (symbolName (SpecLetter j) k) = some (v k j)) :
    ∃ ps' d', updateParticles c ps d = .ok ps' ∧ analyticalSubs ps' = .ok d' ∧
      (∀ k, IsMassless c (ps' k) ![v k 0, v k 1] ![v k 2, v k 3]) ∧
      (∀ (k : Fin n) (j : Fin 4), d' (symbolName (SpecLetter j) k) = d (symbolName (SpecLetter j) k)) ∧
      ∀ key, (∀ (k : Fin n) (j : Fin 4), key ≠ symbolName (SpecLetter j) k) → d' key = none := by
  have hm : ∀ k, IsMassless c (ofSpinors c ![v k 0, v k 1] ![v k 2, v k 3]).st ![v k 0, v k 1] ![v k 2, v k 3] :=
    fun k => ofSpinors_isMassless c _ _
  obtain ⟨d', e, h1, h2⟩ := subsDictLoop_ok (fun k => (ofSpinors c ![v k 0, v k 1] ![v k 2, v k 3]).st) v
    (fun k => (hm k).r_d) (fun k => (hm k).l_d) (List.finRange n) fun _ => none
  refine ⟨_, d', by rw [updateParticles, updateLoop_ok c d v h, assign_finRange], e, hm, ?_, ?_⟩
  · intro k j; rw [h1 k (List.mem_finRange k) j, h k j]
  · intro key hkey; exact h2 key fun k _ j => hkey k j

/-- C76: a dictionary with a missing component is refused with KeyError. -/
theorem C76_missing_component (c : Ctx K) (ps : Point K n) (d : Dict K) (k : Fin n) (j : Fin 4)
    (h : d (symbolName (SpecLetter j) k) = none) : updateParticles c ps d = .error .keyError :=
  updateLoop_keyError c d _ ps (List.mem_finRange k) h

/-- C84: with a mask that is long enough every component whose entry is zero becomes the symbol of that
particle and component, every other one is kept, and the particles stay massless and consistent. -/
theorem C84_symbols_where_zero [NeZero (2 : K)] (c : Ctx K) (ps : Point K n) (r l : Fin n → V2 K) (h : Spin c ps r l)
    (mask : List ℤ) (m : Fin n → Fin 4 → ℤ) (hm : ∀ (k : Fin n) (j : Fin 4), mask[(k : ℕ) * 4 + (j : ℕ)]? = some (m k j))
    (s : Fin n → Fin 4 → K) : ∃ ps' r' l', makeAnalytical c ps (some mask) s = .ok ps' ∧ Spin c ps' r' l' ∧
      ∀ k j, compsOf r' l' k j = if m k j = 0 then s k j else compsOf r l k j := by
  refine ⟨fun k => (ofSpinors c ![if m k 0 = 0 then s k 0 else r k 0, if m k 1 = 0 then s k 1 else r k 1]
      ![if m k 2 = 0 then s k 2 else l k 0, if m k 3 = 0 then s k 3 else l k 1]).st,
    fun k => ![if m k 0 = 0 then s k 0 else r k 0, if m k 1 = 0 then s k 1 else r k 1],
    fun k => ![if m k 2 = 0 then s k 2 else l k 0, if m k 3 = 0 then s k 3 else l k 1], ?_, ?_, ?_⟩
  · rw [makeAnalytical, Option.getD_some,
      analyticLoop_ok c mask s m (fun k => maskOf_eq.mpr (hm k)) r l _ (List.nodup_finRange n) ps fun k _ => (h k).eq_ofSpinors,
      assign_finRange]
  · intro k; exact ofSpinors_isMassless c _ _
  · intro k j; fin_cases j <;> simp [compsOf]

/-- C84: by default every component becomes its own symbol. -/
theorem C84_default [NeZero (2 : K)] (c : Ctx K) (ps : Point K n) (r l : Fin n → V2 K) (h : Spin c ps r l)
    (s : Fin n → Fin 4 → K) : ∃ ps', makeAnalytical c ps none s = .ok ps' ∧
      Spin c ps' (fun k => ![s k 0, s k 1]) (fun k => ![s k 2, s k 3]) := by
  obtain ⟨ps', r', l', e, hs, hc⟩ := C84_symbols_where_zero c ps r l h (List.replicate (4 * n) 0) (fun _ _ => 0)
    (by intro k j
        have hk := k.isLt
        have hj := j.isLt
        rw [List.getElem?_replicate, if_pos (by omega)]) s
  refine ⟨ps', e, fun k => ?_⟩
  have h0 : r' k 0 = s k 0 := by simpa [compsOf] using hc k 0
  have h1 : r' k 1 = s k 1 := by simpa [compsOf] using hc k 1
  have h2 : l' k 0 = s k 2 := by simpa [compsOf] using hc k 2
  have h3 : l' k 1 = s k 3 := by simpa [compsOf] using hc k 3
  have := hs k
  rw [vec2_eta (r' k), vec2_eta (l' k), h0, h1, h2, h3] at this
  exact this

/-- C84: a mask that is too short raises IndexError, whatever the masked components are. -/
theorem C84_short_mask [NeZero (2 : K)] (c : Ctx K) (ps : Point K n) (r l : Fin n → V2 K) (h : Spin c ps r l)
    (mask : List ℤ) (hm : mask.length < 4 * n) (s : Fin n → Fin 4 → K) :
    makeAnalytical c ps (some mask) s = .error .indexError := by
  rw [makeAnalytical, Option.getD_some]
  have none_of : ∀ k : ℕ, mask.length ≤ k * 4 + 3 → maskOf mask k = none := by
    intro k hk
    have : mask[k * 4 + 3]? = none := List.getElem?_eq_none hk
    unfold maskOf
    rw [this]
    generalize mask[k * 4 + 0]? = A
    generalize mask[k * 4 + 1]? = B
    generalize mask[k * 4 + 2]? = C
    cases A <;> cases B <;> cases C <;> rfl
  have key : ∀ (ks : List (Fin n)) (ps : Point K n), ks.Nodup → (∀ k ∈ ks, ps k = (ofSpinors c (r k) (l k)).st) →
      (∃ k ∈ ks, mask.length ≤ (k : ℕ) * 4 + 3) → analyticLoop c mask s ks ps = .error .indexError := by
    intro ks
    induction ks with
    | nil => rintro _ _ _ ⟨k, hk, _⟩; cases hk
    | cons k ks ih =>
      rintro ps hn hp ⟨k₁, hk₁, hl₁⟩
      rw [List.nodup_cons] at hn
      rw [analyticLoop]
      rcases hmo : maskOf mask k with _ | m
      · rfl
      · simp only [hp k List.mem_cons_self, analyticOne_ok, store_ok]
        apply ih _ hn.2
        · intro k' hk'
          rw [Function.update_of_ne (by rintro rfl; exact hn.1 hk')]
          exact hp k' (List.mem_cons_of_mem _ hk')
        · rcases List.mem_cons.mp hk₁ with rfl | hk₁
          · rw [none_of _ hl₁] at hmo; cases hmo
          · exact ⟨k₁, hk₁, hl₁⟩
  refine key _ ps (List.nodup_finRange n) (fun k _ => (h k).eq_ofSpinors) ⟨⟨n - 1, by omega⟩, List.mem_finRange _, ?_⟩
  change mask.length ≤ (n - 1) * 4 + 3
  omega

/-- C76, second part: reading the components of a massless point, replacing them by symbols and substituting
what was read gives back the point itself, all representations of every particle included. -/
theorem C76_symbols_and_back [NeZero (2 : K)] (c : Ctx K) (ps : Point K n) (r l : Fin n → V2 K) (h : Spin c ps r l)
    (s : Fin n → Fin 4 → K) (f : K → K) (d : Dict K) (hd : analyticalSubs ps = .ok d)
    (hf : ∀ (k : Fin n) (j : Fin 4), d (symbolName (SpecLetter j) k) = some (f (s k j))) :
    ∃ ps', makeAnalytical c ps none s = .ok ps' ∧ subsPoint c f ps' = .ok ps := by
  obtain ⟨ps', e, hs⟩ := C84_default c ps r l h s
  refine ⟨ps', e, ?_⟩
  obtain ⟨d', e', h1, -⟩ := subsDictLoop_ok ps (compsOf r l)
    (fun k => by rw [(h k).r_d]; exact congrArg some (vec2_eta _)) (fun k => by rw [(h k).l_d]; exact congrArg some (vec2_eta _))
    (List.finRange n) fun _ => none
  rw [analyticalSubs, e'] at hd
  cases hd
  have hv : ∀ k j, f (s k j) = compsOf r l k j := fun k j =>
    Option.some.inj ((hf k j).symm.trans (h1 k (List.mem_finRange k) j))
  rw [subsPoint, subsLoop_ok c f _ _ _ (List.nodup_finRange n) ps' fun k _ => (hs k).eq_ofSpinors, assign_finRange]
  congr 1
  funext k
  rw [(h k).eq_ofSpinors]
  have a0 : f (s k 0) = r k 0 := hv k 0
  have a1 : f (s k 1) = r k 1 := hv k 1
  have a2 : f (s k 2) = l k 0 := hv k 2
  have a3 : f (s k 3) = l k 1 := hv k 3
  conv_rhs => rw [vec2_eta (r k), vec2_eta (l k), ← a0, ← a1, ← a2, ← a3]
  rfl

/-! ### Concrete cases -/

/-- C76: a dictionary for two particles. -/
example : ∃ ps' d', updateParticles (f13 .symmetric) (fun _ : Fin 2 => blank)
    (fun k => if k = "a1".toList then some 1 else if k = "b1".toList then some 2 else if k = "c1".toList then some 3 else
      if k = "d1".toList then some 4 else if k = "a2".toList then some 5 else if k = "b2".toList then some 6 else
      if k = "c2".toList then some 7 else if k = "d2".toList then some 8 else none) = .ok ps' ∧ analyticalSubs ps' = .ok d' ∧
    d' "d2".toList = some 8 ∧ d' "t".toList = none := by
  obtain ⟨ps', d', h1, h2, -, h4, h5⟩ := C76_write_then_read (f13 .symmetric) (fun _ : Fin 2 => blank)
    (fun k => if k = "a1".toList then some 1 else if k = "b1".toList then some 2 else if k = "c1".toList then some 3 else
      if k = "d1".toList then some 4 else if k = "a2".toList then some 5 else if k = "b2".toList then some 6 else
      if k = "c2".toList then some 7 else if k = "d2".toList then some 8 else none) ![![1, 2, 3, 4], ![5, 6, 7, 8]]
    (by intro k j; fin_cases k <;> fin_cases j <;> decide)
  refine ⟨ps', d', h1, h2, (h4 1 3).trans (by decide), h5 _ ?_⟩
  intro k j; fin_cases j <;> fin_cases k <;> decide

/-- C84: at five points, only the first and the last component become symbols. -/
example : ∃ ps', makeAnalytical (f13 .symmetric) pt5 (some (0 :: (List.replicate 18 1 ++ [0]))) (fun _ _ => 12) = .ok ps' ∧
    (ps' 0).r_d = some ![12, 9] ∧ (ps' 4).l_d = some ![6, 12] ∧ (ps' 2).r_d = some ![1, 4] := by
  obtain ⟨ps', r', l', h1, h2, h3⟩ := C84_symbols_where_zero (f13 .symmetric) pt5 (fun k => (spin5 k).1) (fun k => (spin5 k).2)
    pt5_massless (0 :: (List.replicate 18 1 ++ [0]))
    (fun k j => if k = 0 ∧ j = 0 then 0 else if k = 4 ∧ j = 3 then 0 else 1) (by decide) (fun _ _ => 12)
  refine ⟨ps', h1, ?_, ?_, ?_⟩
  · rw [(h2 0).r_d, vec2_eta (r' 0)]
    have a : r' 0 0 = 12 := h3 0 0
    have b : r' 0 1 = 9 := h3 0 1
    rw [a, b]
  · rw [(h2 4).l_d, vec2_eta (l' 4)]
    have a : l' 4 0 = 6 := h3 4 2
    have b : l' 4 1 = 12 := h3 4 3
    rw [a, b]
  · rw [(h2 2).r_d, vec2_eta (r' 2)]
    have a : r' 2 0 = 1 := h3 2 0
    have b : r' 2 1 = 4 := h3 2 1
    rw [a, b]

/-- The field of rational functions in the components of `n` particles. -/
abbrev RatComps (n : ℕ) := FractionRing (MvPolynomial (Fin n × Fin 4) F13)

/-- The symbol of component `j` of particle `k`. -/
noncomputable def compSymbol (k : Fin n) (j : Fin 4) : RatComps n :=
  algebraMap (MvPolynomial (Fin n × Fin 4) F13) (RatComps n) (MvPolynomial.X (k, j))

instance : NeZero (2 : RatComps n) :=
  ⟨fun h => (by decide : (2 : F13) ≠ 0) ((algebraMap F13 (RatComps n)).injective (by rw [map_ofNat, map_zero]; exact h))⟩

/-- C76: symbols that are the variables of a field of rational functions over the numbers modulo 13. -/
example (c : Ctx (RatComps n)) (ps : Point (RatComps n) n) (r l) (h : Spin c ps r l) :
    ∃ f ps', makeAnalytical c ps none compSymbol = .ok ps' ∧ subsPoint c f ps' = .ok ps := by
  have inj : Function.Injective fun x : Fin n × Fin 4 => compSymbol x.1 x.2 :=
    (IsFractionRing.injective (MvPolynomial (Fin n × Fin 4) F13) (RatComps n)).comp MvPolynomial.X_injective
  obtain ⟨d, e, h1, -⟩ := subsDictLoop_ok ps (compsOf r l)
    (fun k => by rw [(h k).r_d]; exact congrArg some (vec2_eta _)) (fun k => by rw [(h k).l_d]; exact congrArg some (vec2_eta _))
    (List.finRange n) fun _ => none
  refine ⟨Function.extend (fun x : Fin n × Fin 4 => compSymbol x.1 x.2) (fun x => compsOf r l x.1 x.2) fun _ => 0,
    C76_symbols_and_back c ps r l h _ _ d e ?_⟩
  intro k j
  rw [h1 k (List.mem_finRange k) j, inj.extend_apply _ _ (k, j)]

end Lips
