import Verif.Lemmas.PairDelta
import Verif.Props.PairDelta
import Verif.Props.SetText
import Verif.Model.PairND

/-! Setting a string with equal ends and Δ without restoring momentum conservation, on text. -/

namespace Lips

open Matrix

set_option linter.unusedSectionVars false

variable {K Γ : Type*} [Field K] [LinearOrder Γ] {n : ℕ}

/-- The coefficient of the square of the unknown, for a string whose ends are the same label: the lower left component
of the product of the slots, or the upper right one. -/
def QuadGuard (ps : Point K n) (t : Str n) : Prop :=
  (if t.first = '⟨' then chain ps true (t.ms.map plusOf) 1 0 else chain ps false (t.ms.map plusOf) 0 1) ≠ 0

/-- `_set` without momentum conservation. -/
theorem setText_plain {abs : K → Γ} {tol : Γ} (h0 : abs 0 ≤ tol) {c : Ctx K} {ps ps' : Point K n} {fuel : ℕ} {t : List Char} {X : K}
    {mode : ℕ} (hi : setInner c ps fuel t X false mode = some (.ok ps')) (hv : computeText ps' fuel t = some (.ok (.num X))) :
    setText abs tol c ps fuel t X false mode = some (.ok ps') := by
  have hv := callNumber_text (r := .ok X) ps' fuel hv
  unfold setText
  simp [hi, hv, setChecks, h0]

theorem setText_error {abs : K → Γ} {tol : Γ} {c : Ctx K} {ps : Point K n} {fuel : ℕ} {t : List Char} {X : K} {e : Err}
    {fix : Bool} {mode : ℕ} (hi : setInner c ps fuel t X fix mode = some (.error e)) :
    setText abs tol c ps fuel t X fix mode = some (.error e) := by
  simp [setText, hi]

/-- The string. -/
theorem text_quadratic [NeZero (2 : K)] {abs : K → Γ} {tol : Γ} (h0 : abs 0 ≤ tol) {c : Ctx K} {ps : Point K n}
    {r l : Fin n → V2 K} (h : Spin c ps r l) {first last : Char} {s : Fin n} {ss : List (Bool × List (Fin n))}
    (w : (strOf first s ss s last).Wf) (hne : ss ≠ []) (hm : ∀ m ∈ ss, m.2 ≠ []) (h1 : OneDigit (strOf first s ss s last).labels)
    (hs : s ∉ (ss.map Prod.snd).flatten) (hev : ss.length % 2 = 0)
    (hfree : 2 ≤ (freeLabels (strOf first s ss s last).labels).length) (X : K) (fuel : ℕ)
    (hg : QuadGuard ps (strOf first s ss s last)) :
    (∃ D, c.sqrt D = none ∧ setText abs tol c ps fuel (strText first s ss s last) X false 1 = some (.error .valueError)) ∨
    ∃ ps' r' l', setText abs tol c ps fuel (strText first s ss s last) X false 1 = some (.ok ps') ∧ Spin c ps' r' l' ∧
      (strOf first s ss s last).value ps' = .ok X ∧ (∀ k, k ≠ s → ps' k = ps k ∧ r' k = r k ∧ l' k = l k) ∧
      (first = '⟨' → l' = l) ∧ (first = '[' → r' = r) := by
  have hf : first ∈ ['⟨', '['] ∧ last ∈ ['⟩', ']'] := by
    rcases w with ⟨w1, w2⟩ | ⟨w1, w2⟩ <;> simp only at w1 w2 <;> rw [w1, w2] <;> split <;> simp
  obtain ⟨a, m, d, hr⟩ := strText_reads first last s s ss hf.1 hf.2 hne hm
  have hset : setInner c ps fuel (strText first s ss s last) X false 1 =
      some (setNB c (n + 3) ps (strOf first s ss s last) X false 1) := by
    rw [setInner_of (strText_plain first last s s ss hf.1 hf.2) (by simp) hr]
    simp only [setForm]
    rw [setNBText_eq c ps first last s s ss hf.1 hf.2 hne hm ⟨h1, .inr hfree⟩]
  set t := strOf first s ss s last with ht
  have hu : t.uniqueEnd = none := by
    unfold Str.uniqueEnd
    have hl : t.ms.length % 2 = 0 := by simpa [ht] using hev
    rw [if_neg, if_neg]
    · rintro ⟨-, h | h⟩
      · omega
      · exact h rfl
    · rintro ⟨-, h | h⟩
      · omega
      · exact h rfl
  have hrun : setNB c (n + 3) ps t X false 1 = match setHead c ps t X with
      | .error e => .error e
      | .ok ps' => .ok ps' := by
    have hh : ((t.uniqueEnd.isSome = true ∨ (t.s = t.e ∧ t.s ∉ t.ms.flatten ∧ t.ms.length % 2 = 0)) ∧ True) ∨
      t.uniqueMiddle = none := .inl ⟨.inr ⟨rfl, hs, by simpa [ht] using hev⟩, trivial⟩
    simp only [setNB, Bool.false_eq_true, and_false, if_false, Option.getD_none, Option.isSome_none]
    rw [if_pos hh, hu, if_neg (by simp)]
    rfl
  have hM : ∃ M, chain ps (t.first = '⟨') (t.ms.map plusOf) = M := ⟨_, rfl⟩
  obtain ⟨M, hM⟩ := hM
  have hfirst : first = '⟨' ∨ first = '[' := by simpa using hf.1
  have hroot : (∃ D, c.sqrt D = none ∧ setHead c ps t X = .error .valueError) ∨ ∃ y,
      (t.first = '⟨' → c.sqrt ((r t.s 1 * M 0 0 - r t.s 1 * M 1 1) * (r t.s 1 * M 0 0 - r t.s 1 * M 1 1) +
        4 * M 1 0 * (r t.s 1 * r t.s 1 * M 0 1 - X)) = some y ∧ M 1 0 ≠ 0) ∧
      (t.first = '[' → c.sqrt ((l t.s 1 * M 0 0 - l t.s 1 * M 1 1) * (l t.s 1 * M 0 0 - l t.s 1 * M 1 1) +
        4 * M 0 1 * (l t.s 1 * l t.s 1 * M 1 0 - X)) = some y ∧ M 0 1 ≠ 0) := by
    rcases hfirst with e | e
    · have e' : t.first = '⟨' := e
      have hg' : M 1 0 ≠ 0 := by
        rw [QuadGuard, if_pos e'] at hg; rw [← hM]; simpa [e'] using hg
      rcases hq : c.sqrt ((r t.s 1 * M 0 0 - r t.s 1 * M 1 1) * (r t.s 1 * M 0 0 - r t.s 1 * M 1 1) +
        4 * M 1 0 * (r t.s 1 * r t.s 1 * M 0 1 - X)) with _ | y
      · refine .inl ⟨_, hq, ?_⟩
        simp only [setHead, hM]
        rw [if_neg (by simp [e']), if_pos ⟨rfl, by simpa [ht] using hev⟩, if_pos e']
        simp only [(h t.s).r_d, need_some, hq]
      · exact .inr ⟨y, fun _ => ⟨rfl, hg'⟩, fun e2 => by rw [e'] at e2; exact absurd e2 (by decide)⟩
    · have e' : t.first = '[' := e
      have ne : ¬ t.first = '⟨' := by rw [e']; decide
      have hg' : M 0 1 ≠ 0 := by
        rw [QuadGuard, if_neg ne] at hg; rw [← hM]; simpa [e'] using hg
      rcases hq : c.sqrt ((l t.s 1 * M 0 0 - l t.s 1 * M 1 1) * (l t.s 1 * M 0 0 - l t.s 1 * M 1 1) +
        4 * M 0 1 * (l t.s 1 * l t.s 1 * M 1 0 - X)) with _ | y
      · refine .inl ⟨_, hq, ?_⟩
        simp only [setHead, hM]
        rw [if_neg (by simp [e']), if_pos ⟨rfl, by simpa [ht] using hev⟩, if_neg ne]
        simp only [(h t.s).l_d, need_some, hq]
      · exact .inr ⟨y, fun e2 => absurd e2 ne, fun _ => ⟨rfl, hg'⟩⟩
  rcases hroot with ⟨D, hD, e⟩ | ⟨y, hy⟩
  · exact .inl ⟨D, hD, setText_error (by rw [hset, hrun, e])⟩
  · obtain ⟨ps1, r1, l1, e1, s1, v1, o1, o1', m1, m2⟩ := setHead_quadratic h w hs rfl (by simpa [ht] using hev) X y hM hy
    refine .inr ⟨ps1, r1, l1, setText_plain h0 (by rw [hset, hrun, e1]) ?_, s1, v1,
      fun k hk => ⟨o1 k hk, o1' k hk⟩, m1, m2⟩
    rw [strText_value ps1 fuel first last s s ss hf.1 hf.2 hne hm, v1]
    rfl

/-- A text that stands for Δ with corners `A`, `B`, `C`. -/
structure DeltaText (c : Ctx K) (n fuel : ℕ) (t : List Char) (A B C : List (Fin n)) : Prop where
  set : ∀ (ps : Point K n) X fix mode, mode ≠ 0 → setInner c ps fuel t X fix mode = some (setD c ps A B C X fix mode)
  value : ∀ (ps : Point K n) (r l : Fin n → V2 K), Spin c ps r l →
    computeText ps fuel t = some (.ok (.num (computeDelta ps 1 ![A, B, C])))

theorem deltaText_corners {c : Ctx K} {A B C : List (Fin n)} (h1 : OneDigit A ∧ OneDigit B ∧ OneDigit C) (hA : A ≠ [])
    (hB : B ≠ []) (hC : C ≠ []) (fuel : ℕ) :
    DeltaText c n fuel ("Δ_".toList ++ ['|'].intercalate [digitText A, digitText B, digitText C]) A B C := by
  have dig : ∀ u ∈ [digitText A, digitText B, digitText C], isDigits u = true := by
    intro u hu
    simp only [List.mem_cons, List.not_mem_nil, or_false] at hu
    rcases hu with rfl | rfl | rfl
    · exact isDigits_digitText h1.1 hA
    · exact isDigits_digitText h1.2.1 hB
    · exact isDigits_digitText h1.2.2 hC
  have hr : SetReads ("Δ_".toList ++ ['|'].intercalate [digitText A, digitText B, digitText C])
      (.delta [digitText A, digitText B, digitText C]) :=
    .form (ReadsAs.delta (by simp) fun u hu => (isDigits_lang _).mp (dig u hu)) rfl
  have hpl : plainChars ("Δ_".toList ++ ['|'].intercalate [digitText A, digitText B, digitText C]) = true := by
    refine plain_append (by decide) (plain_join fun u hu => plain_digits ?_)
    have := dig u hu
    exact (isDigits_iff.1 this).2
  refine ⟨fun ps X fix mode hmode => ?_, fun ps r l _ => ?_⟩
  · rw [setInner_of hpl (by simp) hr]
    simp only [setForm, setDText, if_neg hmode, readDigits_ok h1.1, readDigits_ok h1.2.1, readDigits_ok h1.2.2]
  · have := C82_delta ps fuel A B [C] (by simp [hA, hB, hC]) (by simp [h1.1, h1.2.1, h1.2.2])
    refine this.trans ?_
    congr 4
    funext i
    fin_cases i <;> rfl

theorem deltaText_short [NeZero (2 : K)] {c : Ctx K} {x y z : Fin n} (h1 : OneDigit [x, y, z]) {fuel : ℕ} {A B C : List (Fin n)}
    (harcs : shortCorners n fuel (digitText [x, y, z]) = some (.ok (A, B, C))) :
    DeltaText c n fuel ("Δ_".toList ++ digitText [x, y, z]) A B C := by
  refine ⟨fun ps X fix mode hmode => ?_, fun ps r l h => ?_⟩
  · rw [setInner_of (short_plain h1).1 (by simp) (short_reads h1).1]
    simp only [setForm, setDText, if_neg hmode, harcs]
  · rw [(C82_shorthands ps fuel x y z h1 harcs).2.2, (delta3_eq (fun k => (h k).cons) A B C).1,
      (delta3_eq (fun k => (h k).cons) A B C).2]

theorem text_delta [NeZero (2 : K)] {abs : K → Γ} {tol : Γ} (h0 : abs 0 ≤ tol) {c : Ctx K} {ps : Point K n}
    {r l : Fin n → V2 K} (h : Spin c ps r l) {fuel : ℕ} {t : List Char} {A B C : List (Fin n)} (ht : DeltaText c n fuel t A B C)
    {k : Fin n} {mode : ℕ} (hmode : mode ≠ 0) (hk : A[(mode - 1) / 2]? = some k) (hA : A.Nodup) (hkB : k ∉ B) (X : K)
    (hg : DeltaGuard c ps r l A B C k mode) :
    (∃ D, c.sqrt D = none ∧ setText abs tol c ps fuel t X false mode = some (.error .valueError)) ∨
    ∃ ps' r' l', setText abs tol c ps fuel t X false mode = some (.ok ps') ∧ Spin c ps' r' l' ∧
      computeDelta ps' 1 ![A, B, C] = X ∧ (∀ j, j ≠ k → ps' j = ps j ∧ r' j = r j ∧ l' j = l j) ∧
      (if mode % 2 = 1 then l' = l else r' = r) := by
  obtain ⟨Q1, Q2, Q3, hQ1, hQ2, hQ3, hal⟩ := hg
  rcases setD_plain h hk hA hkB X hQ1 hQ2 hQ3 hal with ⟨D, e1, e2⟩ | ⟨ps1, r1, l1, run, -, h1, g, o1, m1⟩
  · exact .inl ⟨D, e1, setText_error (by rw [ht.set ps X false mode hmode, e2])⟩
  · have hv := (delta3_eq (fun k => (h1 k).cons) A B C).1.trans g
    refine .inr ⟨ps1, r1, l1, setText_plain h0 (by rw [ht.set ps X false mode hmode, run]) ?_, h1, hv, o1, m1⟩
    rw [ht.value ps1 r1 l1 h1, hv]

/-- A string does not change when other particles do, nor the spinor of its ends that does not occur in it. -/
theorem quad_value_congr {c : Ctx K} {ps ps' : Point K n} {r l r' l' : Fin n → V2 K} (h : Spin c ps r l) (h' : Spin c ps' r' l')
    {t : Str n} (w : t.Wf) (hse : t.s = t.e) (hev : t.ms.length % 2 = 0) (o : ∀ k ∈ t.ms.flatten, ps' k = ps k)
    (hr : t.first = '⟨' → r' t.s = r t.s) (hl : t.first = '[' → l' t.s = l t.s) : t.value ps' = t.value ps := by
  rw [Str.value_eq h w, Str.value_eq h' w, chain_congr' fun k hk => o k (occurs_plus hk)]
  rcases w with ⟨w1, w2⟩ | ⟨w1, w2⟩
  · rw [if_pos hev] at w2
    simp only [headSp, tailSp, w1, w2, if_true, ← hse, hr w1]
  · rw [if_pos hev] at w2
    have e1 : t.first ≠ '⟨' := by rw [w1]; decide
    have e2 : t.last ≠ '⟩' := by rw [w2]; decide
    simp only [headSp, tailSp, e1, e2, if_false, ← hse, hl w1]

end Lips
