import Verif.Model.Parse
import Mathlib.Data.List.Infix

/-! Matching of regular expressions: what a match takes, which match is found first, and what `re.sub` does to a text
put together from pieces. -/

namespace Lips

namespace RE

/-! ### Matches -/

/-- The expression matches `u` between `pre` (last first) and `post`. -/
def Takes (r : RE) (pre u post : List Char) : Prop := (u.reverse ++ pre, post) ∈ r.run (pre, u ++ post)

theorem starRun_shift {f : Spot → List Spot} (hf : ∀ x y, y ∈ f x → ∃ u, x.2 = u ++ y.2 ∧ y.1 = u.reverse ++ x.1) (k : ℕ) (x y : Spot)
    (h : y ∈ starRun f k x) : ∃ u, x.2 = u ++ y.2 ∧ y.1 = u.reverse ++ x.1 := by
  induction k generalizing x with
  | zero => simp only [starRun, List.mem_singleton] at h; exact ⟨[], by simp [h]⟩
  | succ k ih =>
    simp only [starRun, List.mem_append, List.mem_flatMap, List.mem_filter, List.mem_singleton] at h
    rcases h with ⟨z, ⟨hz, -⟩, hy⟩ | rfl
    · obtain ⟨u, h1, h2⟩ := hf _ _ hz
      obtain ⟨v, h3, h4⟩ := ih _ hy
      exact ⟨u ++ v, by rw [h1, h3, List.append_assoc], by rw [h4, h2]; simp⟩
    · exact ⟨[], by simp⟩

/-- A match moves forward over the text. -/
theorem run_shift (r : RE) (x y : Spot) (h : y ∈ r.run x) : ∃ u, x.2 = u ++ y.2 ∧ y.1 = u.reverse ++ x.1 := by
  induction r generalizing x y with
  | eps => simp only [run, List.mem_singleton] at h; exact ⟨[], by simp [h]⟩
  | cls p =>
    rcases x with ⟨pre, _ | ⟨c, s⟩⟩
    · simp [run] at h
    · simp only [run] at h
      split at h
      · simp only [List.mem_singleton] at h; subst h; exact ⟨[c], by simp⟩
      · simp at h
  | seq a b iha ihb =>
    simp only [run, List.mem_flatMap] at h
    obtain ⟨z, hz, hy⟩ := h
    obtain ⟨u, h1, h2⟩ := iha _ _ hz
    obtain ⟨v, h3, h4⟩ := ihb _ _ hy
    exact ⟨u ++ v, by rw [h1, h3, List.append_assoc], by rw [h4, h2]; simp⟩
  | alt a b iha ihb =>
    simp only [run, List.mem_append] at h
    rcases h with h | h
    · exact iha _ _ h
    · exact ihb _ _ h
  | star a ih => exact starRun_shift ih _ _ _ h
  | notBehind ps =>
    simp only [run] at h
    split at h
    · simp at h
    · simp only [List.mem_singleton] at h; exact ⟨[], by simp [h]⟩
  | behind ps =>
    simp only [run] at h
    split at h
    · simp only [List.mem_singleton] at h; exact ⟨[], by simp [h]⟩
    · simp at h
  | notAhead a =>
    simp only [run] at h
    split at h
    · simp only [List.mem_singleton] at h; exact ⟨[], by simp [h]⟩
    · simp at h

/-- Every match is of the form of `Takes`. -/
theorem mem_run {r : RE} {pre s : List Char} {y : Spot} (h : y ∈ r.run (pre, s)) :
    ∃ u, s = u ++ y.2 ∧ y = (u.reverse ++ pre, y.2) ∧ r.Takes pre u y.2 := by
  obtain ⟨u, h1, h2⟩ := run_shift r _ _ h
  simp only at h1 h2
  have e : y = (u.reverse ++ pre, y.2) := by rw [← h2]
  refine ⟨u, h1, e, ?_⟩
  unfold Takes
  rw [← h1, ← e]
  exact h

theorem run_eq_nil {r : RE} {pre s : List Char} : r.run (pre, s) = [] ↔ ∀ u post, s = u ++ post → ¬r.Takes pre u post := by
  constructor
  · rintro h u post rfl ht
    rw [Takes, h] at ht
    simp at ht
  · intro h
    rw [List.eq_nil_iff_forall_not_mem]
    intro y hy
    obtain ⟨u, h1, -, h3⟩ := mem_run hy
    exact h u _ h1 h3

variable {pre u post : List Char}

@[simp] theorem takes_eps : eps.Takes pre u post ↔ u = [] := by
  unfold Takes
  simp only [run, List.mem_singleton, Prod.mk.injEq]
  constructor
  · rintro ⟨-, h⟩; simpa using h
  · rintro rfl; simp

@[simp] theorem takes_cls {p : Char → Bool} : (cls p).Takes pre u post ↔ ∃ c, u = [c] ∧ p c = true := by
  constructor
  · intro h
    unfold Takes at h
    rcases u with _ | ⟨c, u⟩
    · exfalso
      obtain ⟨v, h1, h2⟩ := run_shift _ _ _ h
      simp only [List.nil_append, List.reverse_nil] at h1 h2
      have : v = [] := by simpa using h1
      subst this
      rcases post with _ | ⟨d, post⟩ <;> simp only [run, List.nil_append] at h
      · simp at h
      · split at h
        · simp at h
        · simp at h
    · simp only [run, List.cons_append] at h
      split at h
      · next hc =>
        simp only [List.mem_singleton, Prod.mk.injEq] at h
        have : u = [] := by have := h.2; simpa using this
        exact ⟨c, by rw [this], hc⟩
      · simp at h
  · rintro ⟨c, rfl, hc⟩
    simp [Takes, run, hc]

theorem takes_seq {a b : RE} : (seq a b).Takes pre u post ↔
    ∃ v w, u = v ++ w ∧ a.Takes pre v (w ++ post) ∧ b.Takes (v.reverse ++ pre) w post := by
  constructor
  · intro h
    unfold Takes at h
    simp only [run, List.mem_flatMap] at h
    obtain ⟨z, hz, hy⟩ := h
    obtain ⟨v, h1, h2, h3⟩ := mem_run hz
    rw [h2] at hy
    obtain ⟨w, h4, h5, h6⟩ := mem_run hy
    simp only at h4 h5 h6
    have e : u = v ++ w := by
      rw [h4, ← List.append_assoc] at h1
      exact List.append_cancel_right h1
    refine ⟨v, w, e, ?_, h6⟩
    rw [h4] at h3
    exact h3
  · rintro ⟨v, w, rfl, h1, h2⟩
    unfold Takes at h1 h2 ⊢
    simp only [run, List.mem_flatMap]
    refine ⟨_, by rw [List.append_assoc]; exact h1, ?_⟩
    simpa using h2

@[simp] theorem takes_alt {a b : RE} : (alt a b).Takes pre u post ↔ a.Takes pre u post ∨ b.Takes pre u post := by
  simp [Takes, run]

@[simp] theorem takes_notBehind {ps : List (Char → Bool)} :
    (notBehind ps).Takes pre u post ↔ u = [] ∧ endsIn ps.reverse pre = false := by
  unfold Takes
  simp only [run]
  split
  · next h => simp [h]
  · next h =>
    simp only [List.mem_singleton, Prod.mk.injEq]
    constructor
    · rintro ⟨-, h'⟩; exact ⟨by simpa using h', by simpa using h⟩
    · rintro ⟨rfl, -⟩; simp

@[simp] theorem takes_behind {ps : List (Char → Bool)} :
    (behind ps).Takes pre u post ↔ u = [] ∧ endsIn ps.reverse pre = true := by
  unfold Takes
  simp only [run]
  split
  · next h =>
    simp only [List.mem_singleton, Prod.mk.injEq]
    constructor
    · rintro ⟨-, h'⟩; exact ⟨by simpa using h', h⟩
    · rintro ⟨rfl, -⟩; simp
  · next h => simp [h]

theorem takes_notAhead {a : RE} : (notAhead a).Takes pre u post ↔
    u = [] ∧ ∀ v w, post = v ++ w → ¬a.Takes pre v w := by
  unfold Takes
  simp only [run]
  constructor
  · intro h
    split at h
    · next he =>
      simp only [List.mem_singleton, Prod.mk.injEq] at h
      have hu : u = [] := by simpa using h.2
      subst hu
      refine ⟨rfl, run_eq_nil.mp ?_⟩
      simpa using he
    · simp at h
  · rintro ⟨rfl, h⟩
    rw [if_pos]
    · simp
    · simpa using run_eq_nil.mpr h

@[simp] theorem takes_dig : dig.Takes pre u post ↔ ∃ c, u = [c] ∧ c.isDigit = true := takes_cls

@[simp] theorem takes_of {t : String} : (of t).Takes pre u post ↔ ∃ c ∈ t.toList, u = [c] := by
  unfold of
  rw [takes_cls]
  simp only [decide_eq_true_eq]
  constructor
  · rintro ⟨c, h1, h2⟩; exact ⟨c, h2, h1⟩
  · rintro ⟨c, h1, h2⟩; exact ⟨c, h2, h1⟩

@[simp] theorem takes_lit {t : String} : (lit t).Takes pre u post ↔ u = t.toList := by
  unfold lit
  generalize t.toList = s
  induction s generalizing pre u with
  | nil => simp
  | cons c s ih =>
    rw [List.foldr_cons, takes_seq]
    constructor
    · rintro ⟨v, w, rfl, h1, h2⟩
      obtain ⟨d, rfl, hd⟩ := takes_cls.mp h1
      rw [ih] at h2
      simp at hd
      simp [h2, hd]
    · rintro rfl
      exact ⟨[c], s, rfl, takes_cls.mpr ⟨c, rfl, by simp⟩, ih.mpr rfl⟩

theorem takes_opt {a : RE} : (opt1 a).Takes pre u post ↔ a.Takes pre u post ∨ u = [] := by
  unfold opt1; rw [takes_alt, takes_eps]

theorem takes_cat_nil : (cat []).Takes pre u post ↔ u = [] := takes_eps

theorem takes_cat_cons {a : RE} {rs : List RE} : (cat (a :: rs)).Takes pre u post ↔
    ∃ v w, u = v ++ w ∧ a.Takes pre v (w ++ post) ∧ (cat rs).Takes (v.reverse ++ pre) w post := takes_seq

theorem takes_cat_intro {a : RE} {rs : List RE} {v w : List Char} (h1 : a.Takes pre v (w ++ post))
    (h2 : (cat rs).Takes (v.reverse ++ pre) w post) : (cat (a :: rs)).Takes pre (v ++ w) post := takes_cat_cons.mpr ⟨v, w, rfl, h1, h2⟩

theorem takes_cat_last {a : RE} (h : a.Takes pre u post) : (cat [a]).Takes pre u post :=
  takes_cat_cons.mpr ⟨u, [], by simp, by simpa using h, takes_cat_nil.mpr rfl⟩

/-! ### Repetition -/

theorem starRun_fuel {f : Spot → List Spot} (k k' : ℕ) (x : Spot) (h : x.2.length ≤ k) (h' : x.2.length ≤ k') :
    starRun f k x = starRun f k' x := by
  induction k generalizing x k' with
  | zero =>
    have e : x.2.length = 0 := by omega
    cases k' with
    | zero => rfl
    | succ k' => simp [starRun, e]
  | succ k ih =>
    cases k' with
    | zero =>
      have e : x.2.length = 0 := by omega
      simp [starRun, e]
    | succ k' =>
      simp only [starRun]
      congr 1
      apply List.flatMap_congr
      intro y hy
      simp only [List.mem_filter, decide_eq_true_eq] at hy
      exact ih _ _ (by omega) (by omega)

theorem run_star {a : RE} {x : Spot} : (star a).run x =
    ((a.run x).filter fun y => decide (y.2.length < x.2.length)).flatMap (star a).run ++ [x] := by
  conv_lhs => rw [run, starRun_fuel x.2.length (x.2.length + 1) x (by omega) (by omega), starRun]
  congr 1
  apply List.flatMap_congr
  intro y hy
  simp only [List.mem_filter, decide_eq_true_eq] at hy
  rw [run]
  exact starRun_fuel _ _ _ (by omega) (by omega)

theorem takes_star_nil {a : RE} : (star a).Takes pre [] post := by
  unfold Takes
  rw [run_star]
  simp

theorem takes_star_cons {a : RE} {v w : List Char} (hv : v ≠ []) (h1 : a.Takes pre v (w ++ post))
    (h2 : (star a).Takes (v.reverse ++ pre) w post) : (star a).Takes pre (v ++ w) post := by
  unfold Takes
  rw [run_star]
  simp only [List.mem_append, List.mem_flatMap, List.mem_filter, decide_eq_true_eq]
  refine .inl ⟨(v.reverse ++ pre, w ++ post), ⟨by simpa [Takes] using h1, ?_⟩, by simpa [Takes] using h2⟩
  have := List.length_pos_of_ne_nil hv
  simp only [List.length_append]; omega

theorem takes_star {a : RE} : (star a).Takes pre u post ↔ u = [] ∨
    ∃ v w, u = v ++ w ∧ v ≠ [] ∧ a.Takes pre v (w ++ post) ∧ (star a).Takes (v.reverse ++ pre) w post := by
  constructor
  · intro h
    have h' := h
    unfold Takes at h
    rw [run_star] at h
    simp only [List.mem_append, List.mem_flatMap, List.mem_filter, decide_eq_true_eq, List.mem_singleton, Prod.mk.injEq] at h
    rcases h with ⟨z, ⟨hz, hl⟩, hy⟩ | ⟨-, h⟩
    · obtain ⟨v, h1, h2, h3⟩ := mem_run hz
      rw [h2] at hy
      obtain ⟨w, h4, h5, h6⟩ := mem_run hy
      simp only at h4 h5 h6
      have e : u = v ++ w := by
        rw [h4, ← List.append_assoc] at h1
        exact List.append_cancel_right h1
      refine .inr ⟨v, w, e, ?_, by rw [h4] at h3; exact h3, h6⟩
      rintro rfl
      rw [h1] at hl
      simp at hl
    · exact .inl (by simpa using h)
  · rintro (rfl | ⟨v, w, rfl, hv, h1, h2⟩)
    · exact takes_star_nil
    · exact takes_star_cons hv h1 h2

/-- The characters of a repetition are those of the rounds. -/
theorem takes_star_all {a : RE} {P : Char → Prop} (ha : ∀ pre u post, a.Takes pre u post → ∀ c ∈ u, P c)
    (h : (star a).Takes pre u post) : ∀ c ∈ u, P c := by
  generalize hk : u.length = k
  induction k using Nat.strong_induction_on generalizing u pre with
  | _ k ih =>
    rcases takes_star.mp h with rfl | ⟨v, w, rfl, hv, h1, h2⟩
    · simp
    · have := List.length_pos_of_ne_nil hv
      have hw := ih w.length (by rw [← hk, List.length_append]; omega) h2 rfl
      intro c hc
      rcases List.mem_append.mp hc with hc | hc
      · exact ha _ _ _ h1 c hc
      · exact hw c hc

theorem takes_star_cls {p : Char → Bool} : (star (cls p)).Takes pre u post ↔ ∀ c ∈ u, p c = true := by
  constructor
  · exact takes_star_all fun pre u post h => by
      obtain ⟨c, rfl, hc⟩ := takes_cls.mp h
      simpa using hc
  · intro h
    induction u generalizing pre with
    | nil => exact takes_star_nil
    | cons c u ih =>
      exact takes_star_cons (v := [c]) (by simp) (takes_cls.mpr ⟨c, rfl, h c (by simp)⟩)
        (ih fun d hd => h d (by simp [hd]))

theorem takes_plus {a : RE} : (some1 a).Takes pre u post ↔
    ∃ v w, u = v ++ w ∧ a.Takes pre v (w ++ post) ∧ (star a).Takes (v.reverse ++ pre) w post := takes_seq

theorem takes_plus_cls {p : Char → Bool} : (some1 (cls p)).Takes pre u post ↔ u ≠ [] ∧ ∀ c ∈ u, p c = true := by
  rw [takes_plus]
  constructor
  · rintro ⟨v, w, rfl, h1, h2⟩
    obtain ⟨c, rfl, hc⟩ := takes_cls.mp h1
    rw [takes_star_cls] at h2
    exact ⟨by simp, by simpa [hc] using h2⟩
  · rintro ⟨h1, h2⟩
    rcases u with _ | ⟨c, u⟩
    · exact absurd rfl h1
    · exact ⟨[c], u, rfl, takes_cls.mpr ⟨c, rfl, h2 c (by simp)⟩, takes_star_cls.mpr fun d hd => h2 d (by simp [hd])⟩

@[simp] theorem takes_plus_dig : (some1 dig).Takes pre u post ↔ u ≠ [] ∧ ∀ c ∈ u, c.isDigit = true := takes_plus_cls

/-! ### The match found first -/

theorem head_seq {a b : RE} {x y z : Spot} (h1 : (a.run x).head? = some y) (h2 : (b.run y).head? = some z) :
    ((seq a b).run x).head? = some z := by
  rw [run]
  rcases h : a.run x with _ | ⟨y', l⟩
  · rw [h] at h1; simp at h1
  · rw [h] at h1
    simp only [List.head?_cons, Option.some.injEq] at h1
    subst h1
    rw [List.flatMap_cons, List.head?_append, h2]
    rfl

theorem head_cat_cons {a : RE} {rs : List RE} {x y z : Spot} (h1 : (a.run x).head? = some y) (h2 : ((cat rs).run y).head? = some z) :
    ((cat (a :: rs)).run x).head? = some z := head_seq h1 h2

theorem head_cat_nil {x : Spot} : ((cat []).run x).head? = some x := rfl

theorem head_alt_left {a b : RE} {x y : Spot} (h : (a.run x).head? = some y) : ((alt a b).run x).head? = some y := by
  rw [run, List.head?_append, h]
  rfl

theorem head_alt_right {a b : RE} {x : Spot} (h : a.run x = []) : ((alt a b).run x).head? = (b.run x).head? := by
  rw [run, h]
  rfl

theorem head_star_cons {a : RE} {x y z : Spot} (h1 : (a.run x).head? = some y) (hl : y.2.length < x.2.length)
    (h2 : ((star a).run y).head? = some z) : ((star a).run x).head? = some z := by
  rw [run_star]
  rcases h : a.run x with _ | ⟨y', l⟩
  · rw [h] at h1; simp at h1
  · rw [h] at h1
    simp only [List.head?_cons, Option.some.injEq] at h1
    subst h1
    rw [List.filter_cons_of_pos (by simpa using hl), List.flatMap_cons, List.append_assoc, List.head?_append, h2]
    rfl

theorem head_star_stop {a : RE} {x : Spot} (h : a.run x = []) : ((star a).run x).head? = some x := by
  rw [run_star, h]
  rfl

theorem head_cls {p : Char → Bool} {c : Char} {pre s : List Char} (h : p c = true) :
    ((cls p).run (pre, c :: s)).head? = some (c :: pre, s) := by simp [run, h]

theorem head_eps {x : Spot} : (eps.run x).head? = some x := rfl

/-- The one match there is. -/
theorem head_unique {r : RE} (h : r.Takes pre u post) (hu : ∀ v w, u ++ post = v ++ w → r.Takes pre v w → v = u) :
    (r.run (pre, u ++ post)).head? = some (u.reverse ++ pre, post) := by
  rcases hr : r.run (pre, u ++ post) with _ | ⟨y, l⟩
  · rw [Takes, hr] at h; simp at h
  · obtain ⟨v, h1, h2, h3⟩ := mem_run (r := r) (pre := pre) (s := u ++ post) (y := y) (by rw [hr]; simp)
    have e := hu v y.2 h1 h3
    subst e
    have e2 : post = y.2 := List.append_cancel_left h1
    rw [List.head?_cons, h2, ← e2]

theorem head_lit {t : String} : ((lit t).run (pre, t.toList ++ post)).head? = some (t.toList.reverse ++ pre, post) :=
  head_unique (takes_lit.mpr rfl) fun _ _ _ h => takes_lit.mp h

/-- A repetition of characters of a class takes all of them. -/
theorem head_star_cls {p : Char → Bool} (h : ∀ c ∈ u, p c = true) (hp : ∀ c, post.head? = some c → p c = false) :
    ((star (cls p)).run (pre, u ++ post)).head? = some (u.reverse ++ pre, post) := by
  induction u generalizing pre with
  | nil =>
    apply head_star_stop
    rcases post with _ | ⟨c, s⟩
    · rfl
    · have := hp c rfl
      simp [run, this]
  | cons c u ih =>
    have := ih (pre := c :: pre) fun d hd => h d (by simp [hd])
    rw [List.reverse_cons, List.append_assoc]
    exact head_star_cons (head_cls (h c (by simp))) (by simp) this

theorem head_plus_cls {p : Char → Bool} (hu : u ≠ []) (h : ∀ c ∈ u, p c = true) (hp : ∀ c, post.head? = some c → p c = false) :
    ((some1 (cls p)).run (pre, u ++ post)).head? = some (u.reverse ++ pre, post) := by
  rcases u with _ | ⟨c, u⟩
  · exact absurd rfl hu
  · have := head_star_cls (pre := c :: pre) (u := u) (fun d hd => h d (by simp [hd])) hp
    rw [List.reverse_cons, List.append_assoc]
    exact head_seq (head_cls (h c (by simp))) this

theorem head_plus_dig (hu : u ≠ []) (h : ∀ c ∈ u, c.isDigit = true) (hp : ∀ c, post.head? = some c → c.isDigit = false) :
    ((some1 dig).run (pre, u ++ post)).head? = some (u.reverse ++ pre, post) := head_plus_cls hu h hp

/-! ### First characters -/

/-- The expression takes no character. -/
def isTest : RE → Bool
  | .eps | .notBehind _ | .behind _ | .notAhead _ => true
  | .seq a b => a.isTest && b.isTest
  | _ => false

/-- May a match begin with this character. -/
def starts : RE → Char → Bool
  | .cls p, c => p c
  | .seq a b, c => if a.isTest then b.starts c else a.starts c
  | .alt a b, c => a.starts c || b.starts c
  | _, _ => true

theorem isTest_run {r : RE} (h : r.isTest = true) {x y : Spot} (hy : y ∈ r.run x) : y = x := by
  induction r generalizing x y with
  | eps => simpa [run] using hy
  | seq a b iha ihb =>
    simp only [isTest, Bool.and_eq_true] at h
    simp only [run, List.mem_flatMap] at hy
    obtain ⟨z, hz, hy⟩ := hy
    rw [ihb h.2 hy, iha h.1 hz]
  | notBehind ps => simp only [run] at hy; split at hy <;> simp_all
  | behind ps => simp only [run] at hy; split at hy <;> simp_all
  | notAhead a => simp only [run] at hy; split at hy <;> simp_all
  | cls p => simp [isTest] at h
  | alt a b => simp [isTest] at h
  | star a => simp [isTest] at h

theorem run_of_starts {r : RE} {c : Char} (h : r.starts c = false) (s : List Char) : r.run (pre, c :: s) = [] := by
  induction r generalizing pre with
  | cls p => simp only [starts] at h; simp [run, h]
  | seq a b iha ihb =>
    simp only [starts] at h
    rw [run]
    split at h
    · next ht =>
      rw [List.flatMap_eq_nil_iff]
      intro y hy
      rw [isTest_run ht hy]
      exact ihb h
    · rw [iha h]; rfl
  | alt a b iha ihb =>
    simp only [starts, Bool.or_eq_false_iff] at h
    rw [run, iha h.1, ihb h.2]; rfl
  | eps => simp [starts] at h
  | star a => simp [starts] at h
  | notBehind ps => simp [starts] at h
  | behind ps => simp [starts] at h
  | notAhead a => simp [starts] at h

/-! ### Substitution -/

/-- No match begins in `b` between `pre` and `post`. -/
def Quiet (r : RE) (pre b post : List Char) : Prop :=
  ∀ b1 c b2, b = b1 ++ c :: b2 → r.run (b1.reverse ++ pre, c :: (b2 ++ post)) = []

/-- The match found at the beginning of `b` is `b`. -/
def Hit (r : RE) (pre b post : List Char) : Prop :=
  b ≠ [] ∧ (r.run (pre, b ++ post)).head? = some (b.reverse ++ pre, post)

theorem quiet_nil {r : RE} : r.Quiet pre [] post := by
  intro b1 c b2 h
  simp at h

theorem quiet_cons {r : RE} {c : Char} {b : List Char} (h1 : r.run (pre, c :: (b ++ post)) = []) (h2 : r.Quiet (c :: pre) b post) :
    r.Quiet pre (c :: b) post := by
  intro b1 d b2 h
  rcases b1 with _ | ⟨e, b1⟩
  · simp only [List.nil_append, List.cons.injEq] at h
    obtain ⟨rfl, rfl⟩ := h
    simpa using h1
  · simp only [List.cons_append, List.cons.injEq] at h
    obtain ⟨rfl, rfl⟩ := h
    simpa using h2 b1 d b2 rfl

theorem quiet_append {r : RE} {a b : List Char} (h1 : r.Quiet pre a (b ++ post)) (h2 : r.Quiet (a.reverse ++ pre) b post) :
    r.Quiet pre (a ++ b) post := by
  induction a generalizing pre with
  | nil => simpa using h2
  | cons c a ih =>
    have h3 := h1 [] c a rfl
    refine quiet_cons (by simpa using h3) (ih ?_ (by simpa using h2))
    intro b1 d b2 h
    have := h1 (c :: b1) d b2 (by rw [h]; rfl)
    simpa using this

theorem quiet_of_starts {r : RE} {b : List Char} (h : ∀ c ∈ b, r.starts c = false) : r.Quiet pre b post := by
  intro b1 c b2 e
  exact run_of_starts (h c (by rw [e]; simp)) _

theorem sub_quiet {r : RE} {f : List Char → List Char} {b : List Char} (h : r.Quiet pre b post) :
    r.sub f 0 pre (b ++ post) = b ++ r.sub f 0 (b.reverse ++ pre) post := by
  induction b generalizing pre with
  | nil => rfl
  | cons c b ih =>
    have h1 := h [] c b rfl
    simp only [List.reverse_nil, List.nil_append] at h1
    rw [List.cons_append, sub, h1]
    simp only [List.head?_nil]
    rw [ih (pre := c :: pre)]
    · simp
    · intro b1 d b2 e
      have := h (c :: b1) d b2 (by rw [e]; rfl)
      simpa using this

theorem sub_skip {r : RE} {f : List Char → List Char} (b : List Char) :
    r.sub f b.length pre (b ++ post) = r.sub f 0 (b.reverse ++ pre) post := by
  induction b generalizing pre with
  | nil => rfl
  | cons c b ih =>
    rw [List.cons_append, List.length_cons, sub, ih]
    simp

theorem sub_hit {r : RE} {f : List Char → List Char} {b : List Char} (h : r.Hit pre b post) :
    r.sub f 0 pre (b ++ post) = f b ++ r.sub f 0 (b.reverse ++ pre) post := by
  obtain ⟨hb, h⟩ := h
  rcases b with _ | ⟨c, b⟩
  · exact absurd rfl hb
  · rw [List.cons_append] at h ⊢
    rw [sub, h]
    simp only
    have hl : (c :: (b ++ post)).length - post.length = (c :: b).length := by simp; omega
    rw [if_neg (by simp; omega), hl, ← List.cons_append, List.take_left, show (c :: b).length - 1 = b.length from rfl, sub_skip]
    simp

/-- A text in which nothing matches stays as it is. -/
theorem sub_none {r : RE} {f : List Char → List Char} {t : List Char} (h : r.Quiet [] t []) : r.sub f 0 [] t = t := by
  have := sub_quiet (f := f) h
  simpa [sub] using this

end RE

end Lips
