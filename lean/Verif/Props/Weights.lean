import Verif.Spec.Weight
import Verif.Props.LorentzText

/-!
C122: expressions scale under little-group transformations and under rescaling with the weights that counting gives.
-/

namespace Lips

open Matrix

variable {K : Type*} [Field K] {n : ℕ}

/-! ### Expressions -/

/-- Values of which the second is the first one multiplied by `t ^ w`. -/
def WRel (t : K) (w : ℤ) : EVal K → EVal K → Prop
  | .int a, .int b => a = b ∧ w = 0
  | .frac a, .frac b => a = b ∧ w = 0
  | .fld x, .fld y => y = t ^ w * x
  | .other, .other => True
  | _, _ => False

/-- The same for results, with the same exceptions. -/
def WRes {α : Type*} (R : α → α → Prop) : Except Err α → Except Err α → Prop
  | .ok x, .ok y => R x y
  | .error e, .error e' => e = e'
  | _, _ => False

theorem WRel.toField {t : K} {w : ℤ} {x y : EVal K} (h : WRel t w x y) : WRes (fun a b => b = t ^ w * a) x.toField y.toField := by
  cases x <;> cases y <;> first | exact h.elim | skip
  · obtain ⟨rfl, rfl⟩ := h
    simp [EVal.toField, WRes]
  · obtain ⟨rfl, rfl⟩ := h
    simp only [EVal.toField]
    rcases ratField _ with e | a
    · rfl
    · simp [WRes]
  · exact h
  · rfl

theorem WRes.cases {α : Type*} {R : α → α → Prop} {x y : Except Err α} (h : WRes R x y) :
    (∃ e, x = .error e ∧ y = .error e) ∨ ∃ a b, x = .ok a ∧ y = .ok b ∧ R a b := by
  rcases x with e | a <;> rcases y with e' | b
  · exact .inl ⟨e, rfl, by rw [show e = e' from h]⟩
  · exact h.elim
  · exact h.elim
  · exact .inr ⟨a, b, rfl, rfl, h⟩

theorem WRel.binop {t : K} {w1 w2 w : ℤ} (hw : w1 = 0 → w2 = 0 → w = 0) {fi : ℤ → ℤ → Except Err (EVal K)} {fq : ℚ → ℚ → Except Err (EVal K)}
    {fk : K → K → Except Err (EVal K)} (hi : ∀ a b, WRes (WRel t 0) (fi a b) (fi a b)) (hq : ∀ a b, WRes (WRel t 0) (fq a b) (fq a b))
    (hk : ∀ a b, WRes (WRel t w) (fk a b) (fk (t ^ w1 * a) (t ^ w2 * b))) {x x' y y' : EVal K} (hx : WRel t w1 x x') (hy : WRel t w2 y y') :
    WRes (WRel t w) (Lips.binop fi fq fk x y) (Lips.binop fi fq fk x' y') := by
  have hxf := hx.toField
  have hyf := hy.toField
  have field : ∀ p q p' q' : Except Err K, WRes (fun a b => b = t ^ w1 * a) p p' → WRes (fun a b => b = t ^ w2 * a) q q' →
      WRes (WRel t w) (match p, q with | .ok a, .ok b => fk a b | _, _ => .error .zeroDivision)
        (match p', q' with | .ok a, .ok b => fk a b | _, _ => .error .zeroDivision) := by
    intro p q p' q' h1 h2
    rcases h1.cases with ⟨e, rfl, rfl⟩ | ⟨a, _, rfl, rfl, rfl⟩
    · rfl
    rcases h2.cases with ⟨e, rfl, rfl⟩ | ⟨b, _, rfl, rfl, rfl⟩
    · rfl
    exact hk a b
  cases x <;> cases x' <;> first | exact hx.elim | skip
  all_goals cases y <;> cases y' <;> first | exact hy.elim | skip
  all_goals first
    | exact trivial
    | exact field _ _ _ _ hxf hyf
    | (obtain ⟨rfl, h1⟩ := hx; obtain ⟨rfl, h2⟩ := hy; rw [hw h1 h2]; first | exact hi _ _ | exact hq _ _)

theorem vAdd_scale {t : K} {w : ℤ} {x x' y y' : EVal K} (hx : WRel t w x x') (hy : WRel t w y y') : WRes (WRel t w) (vAdd x y) (vAdd x' y') := by
  unfold vAdd
  refine WRel.binop (fun h _ => h) (fun a b => ?_) (fun a b => ?_) (fun a b => ?_) hx hy
  · exact And.intro rfl rfl
  · exact And.intro rfl rfl
  · exact (mul_add _ _ _).symm

theorem vSub_scale {t : K} {w : ℤ} {x x' y y' : EVal K} (hx : WRel t w x x') (hy : WRel t w y y') : WRes (WRel t w) (vSub x y) (vSub x' y') := by
  unfold vSub
  refine WRel.binop (fun h _ => h) (fun a b => ?_) (fun a b => ?_) (fun a b => ?_) hx hy
  · exact And.intro rfl rfl
  · exact And.intro rfl rfl
  · exact (mul_sub _ _ _).symm

theorem vMul_scale {t : K} (ht : t ≠ 0) {v w : ℤ} {x x' y y' : EVal K} (hx : WRel t v x x') (hy : WRel t w y y') :
    WRes (WRel t (v + w)) (vMul x y) (vMul x' y') := by
  unfold vMul
  refine WRel.binop (fun h h' => by rw [h, h']; rfl) (fun a b => ?_) (fun a b => ?_) (fun a b => ?_) hx hy
  · exact And.intro rfl rfl
  · exact And.intro rfl rfl
  · show _ = _
    rw [zpow_add₀ ht]; ring

theorem vDiv_scale {t : K} (ht : t ≠ 0) {v w : ℤ} {x x' y y' : EVal K} (hx : WRel t v x x') (hy : WRel t w y y') :
    WRes (WRel t (v - w)) (vDiv x y) (vDiv x' y') := by
  unfold vDiv
  refine WRel.binop (fun h h' => by rw [h, h']; rfl) (fun a b => ?_) (fun a b => ?_) (fun a b => ?_) hx hy
  · split
    · rfl
    · trivial
  · split
    · rfl
    · exact And.intro rfl rfl
  · have hz := zpow_ne_zero w ht
    by_cases hb : b = 0
    · subst hb; simp [WRes]
    · rw [if_neg hb, if_neg (mul_ne_zero hz hb)]
      show _ = _
      rw [zpow_sub₀ ht]
      field_simp

theorem vPow_scale {t : K} (ht : t ≠ 0) {v m : ℤ} {x x' : EVal K} (hx : WRel t v x x') : WRes (WRel t (m * v)) (vPow x (.int m)) (vPow x' (.int m)) := by
  cases x <;> cases x' <;> first | exact hx.elim | skip
  · obtain ⟨rfl, rfl⟩ := hx
    simp only [vPow, mul_zero]
    split
    · exact And.intro rfl rfl
    split
    · rfl
    · trivial
  · obtain ⟨rfl, rfl⟩ := hx
    simp only [vPow, mul_zero]
    split
    · rfl
    · exact And.intro rfl rfl
  · rename_i p q
    obtain rfl : q = t ^ v * p := hx
    have hz := zpow_ne_zero v ht
    simp only [vPow]
    by_cases h0 : m < 0 ∧ p = 0
    · rw [if_pos h0, if_pos ⟨h0.1, by rw [h0.2, mul_zero]⟩]; rfl
    · rw [if_neg h0, if_neg fun h1 => h0 ⟨h1.1, (mul_eq_zero.mp h1.2).resolve_left hz⟩]
      show _ = _
      rw [mul_zpow, ← zpow_mul, mul_comm v m]
  · trivial

theorem WRes.lift₂ {t : K} {w1 w2 w : ℤ} {f : EVal K → EVal K → Except Err (EVal K)}
    (hf : ∀ x x' y y', WRel t w1 x x' → WRel t w2 y y' → WRes (WRel t w) (f x y) (f x' y')) {x x' y y' : Except Err (EVal K)}
    (hx : WRes (WRel t w1) x x') (hy : WRes (WRel t w2) y y') : WRes (WRel t w) (Lips.lift₂ f x y) (Lips.lift₂ f x' y') := by
  rcases hx.cases with ⟨e, rfl, rfl⟩ | ⟨a, b, rfl, rfl, h1⟩
  · rfl
  rcases hy.cases with ⟨e, rfl, rfl⟩ | ⟨a', b', rfl, rfl, h2⟩
  · rfl
  exact hf _ _ _ _ h1 h2

/-- If the invariants scale with their weights, so do expressions that have a weight. -/
theorem evalNode_scale {t : K} (ht : t ≠ 0) {w : List Char → Option ℤ} {leaf leaf' : List Char → Except Err K}
    {lv : Level} {ts : List (Tok EAtom)} {e : Ast EAtom} (hr : Reads lv ts e)
    (hl : ∀ i, .atom (.leaf i) ∈ ts → ∀ W, w i = some W → WRes (fun a b => b = t ^ W * a) (leaf i) (leaf' i)) (W : ℤ) (hW : e.weight w = some W) :
    WRes (WRel t W) (evalNode leaf e) (evalNode leaf' e) := by
  induction hr generalizing W with
  | atom x =>
    rcases x with k | ⟨a, b⟩ | i
    · cases hW; exact ⟨rfl, rfl⟩
    · cases hW
      simp only [evalNode]
      split
      · rfl
      · exact ⟨rfl, rfl⟩
    · simp only [evalNode]
      rcases (hl i (by simp) W hW).cases with ⟨e, h1, h2⟩ | ⟨a, b, h1, h2, h3⟩
      · rw [h1, h2]; rfl
      · rw [h1, h2]; exact h3
  | paren _ ih => exact ih (fun i hi => hl i (by simp [hi])) W hW
  | ofAtom _ ih => exact ih hl W hW
  | ofPower _ ih => exact ih hl W hW
  | ofFactor _ ih => exact ih hl W hW
  | ofTerm _ ih => exact ih hl W hW
  | pos _ ih => exact ih (fun i hi => hl i (by simp [hi])) W hW
  | neg _ ih =>
    simp only [evalNode]
    rcases (ih (fun i hi => hl i (by simp [hi])) W hW).cases with ⟨e, h1, h2⟩ | ⟨a, b, h1, h2, h3⟩
    · rw [h1, h2]; rfl
    · rw [h1, h2]
      show WRel t W (vNeg a) (vNeg b)
      cases a <;> cases b <;> first | exact h3.elim | trivial | exact ⟨congrArg _ h3.1, h3.2⟩ | skip
      show _ = _
      rw [show _ = _ from h3]; ring
  | add _ _ ih1 ih2 =>
    simp only [Ast.weight] at hW
    split_ifs at hW with hh
    exact WRes.lift₂ (fun _ _ _ _ => vAdd_scale) (ih1 (fun i hi => hl i (by simp [hi])) W hW) (ih2 (fun i hi => hl i (by simp [hi])) W (hh ▸ hW))
  | sub _ _ ih1 ih2 =>
    simp only [Ast.weight] at hW
    split_ifs at hW with hh
    exact WRes.lift₂ (fun _ _ _ _ => vSub_scale) (ih1 (fun i hi => hl i (by simp [hi])) W hW) (ih2 (fun i hi => hl i (by simp [hi])) W (hh ▸ hW))
  | mul _ _ ih1 ih2 =>
    simp only [Ast.weight, Option.bind_eq_some_iff, Option.map_eq_some_iff] at hW
    obtain ⟨x, hx, y, hy, rfl⟩ := hW
    exact WRes.lift₂ (fun _ _ _ _ => vMul_scale ht) (ih1 (fun i hi => hl i (by simp [hi])) x hx) (ih2 (fun i hi => hl i (by simp [hi])) y hy)
  | div _ _ ih1 ih2 =>
    simp only [Ast.weight, Option.bind_eq_some_iff, Option.map_eq_some_iff] at hW
    obtain ⟨x, hx, y, hy, rfl⟩ := hW
    exact WRes.lift₂ (fun _ _ _ _ => vDiv_scale ht) (ih1 (fun i hi => hl i (by simp [hi])) x hx) (ih2 (fun i hi => hl i (by simp [hi])) y hy)
  | pow _ _ ih1 ih2 =>
    rename_i ts us a b ha hb
    simp only [Ast.weight] at hW
    split at hW
    · rename_i m hm
      simp only [Option.map_eq_some_iff] at hW
      obtain ⟨x, hx, rfl⟩ := hW
      simp only [evalNode, int_eval _ b m hm]
      rcases (ih1 (fun i hi => hl i (by simp [hi])) x hx).cases with ⟨e, h1, h2⟩ | ⟨u, v, h1, h2, h3⟩
      · rw [h1, h2]; rfl
      · rw [h1, h2]
        exact vPow_scale ht h3
    · cases hW

/-- `compute` of the text of an expression that has a weight: a number is multiplied by the power of `t`, an exception is the same. -/
theorem callNumber_scale {t : K} (ht : t ≠ 0) {ps ps' : Point K n} {fuel : ℕ} {w : List Char → Option ℤ}
    (hw : ∀ name W, w name = some W → WRes (fun a b => b = t ^ W * a) (leafNum ps fuel name) (leafNum ps' fuel name))
    {ts : List WTok} (hx : Expression ts) (hc : classify (exprText ts) = .expression) {lead : ℕ} {its : List Item} {e : Ast EAtom}
    (hts : ts.map WTok.sym = written lead its) (hr : Reads .expr (its.map Item.tok) e) (hn : ∀ i ∈ its, ∀ a b, i.tok ≠ .atom (.rat a b))
    (hh : HiddenOk (its.map fun i => (i.tok, i.hidden))) (hl : ¬ LongExponent (its.map Item.tok)) :
    ∃ e', Reads .expr (taken false (its.map Item.tok)) e' ∧ ∀ W, e'.weight w = some W →
      callNumber ps' fuel (exprText ts) = (callNumber ps fuel (exprText ts)).map (Except.map (t ^ W * ·)) := by
  obtain ⟨e', h1, h2⟩ := C81_reading lead its e hr hn hh hl
  refine ⟨e', h1, fun W hW => ?_⟩
  have key := evalNode_scale ht (leaf := leafNum ps fuel) (leaf' := leafNum ps' fuel) h1 (fun i _ W hi => hw i W hi) W hW
  have ev : ∀ q : Point K n, evalChars (leafNum q fuel) (exprText ts) = some (evalNode (leafNum q fuel) e') := by
    intro q
    rw [C94_eval _ hx, hts, evalText, h2]
  unfold callNumber callText
  rw [rsubs_plain _ (expr_plain hx)]
  simp only [if_pos hc, ev, Option.map_some]
  rcases key.cases with ⟨er, k1, k2⟩ | ⟨u, v, k1, k2, k3⟩
  · rw [k1, k2]; rfl
  · rw [k1, k2]
    have hf := k3.toField
    cases u <;> cases v <;> first | exact k3.elim | rfl | skip
    all_goals
      simp only [Option.map_some, Option.some.injEq]
      rcases hf.cases with ⟨er, k4, k5⟩ | ⟨u, v, k4, k5, k6⟩
      · rw [k4, k5]; rfl
      · rw [k4, k5, k6]; rfl

/-! ### Invariants -/

/-- `ps'` is `ps` with every `|k⟩` multiplied by `α k` and every `[k|` by `β k`, the products being `μ` for all of them, so that all momenta
are multiplied by `μ`. Massive particles have no spinors. -/
structure Scaled (α β : Fin n → K) (μ : K) (ps ps' : Point K n) : Prop where
  both : ∀ k, α k * β k = μ
  r2 : ∀ k, (ps' k).r2 = μ • (ps k).r2
  r2b : ∀ k, (ps' k).r2b = μ • (ps k).r2b
  r_d : ∀ k, (ps' k).r_d = (ps k).r_d.map (α k • ·)
  r_u : ∀ k, (ps' k).r_u = (ps k).r_u.map (α k • ·)
  l_d : ∀ k, (ps' k).l_d = (ps k).l_d.map (β k • ·)
  l_u : ∀ k, (ps' k).l_u = (ps k).l_u.map (β k • ·)

theorem WRes.of_eq {f : K} {x : K} : WRes (fun a b : K => b = f * a) (.ok x) (.ok (f * x)) := rfl

namespace Scaled

variable {α β : Fin n → K} {μ : K} {ps ps' : Point K n}

theorem slot (H : Scaled α β μ ps ps') (b : Bool) (s : Slot n) : slotMat (barOf b) ps' s = μ • slotMat (barOf b) ps s := by
  apply slotMat_map (g := fun M => μ • M)
  · simp
  · intro x y; rw [smul_add]
  · intro _ l _
    cases b
    · exact H.r2 l
    · exact H.r2b l

theorem chain_eq (H : Scaled α β μ ps ps') (mid : List (Slot n)) (b : Bool) : chain ps' b mid = μ ^ mid.length • chain ps b mid := by
  induction mid generalizing b with
  | nil => simp [chain]
  | cons s ss ih =>
    rw [chain_cons, chain_cons, ih, H.slot, List.length_cons, pow_succ', Matrix.smul_mul, Matrix.mul_smul, smul_smul]

theorem angle_scale (H : Scaled α β μ ps ps') (a b : Fin n) :
    WRes (fun x y => y = (α a * α b) * x) (Lips.angle (ps a) (ps b)) (Lips.angle (ps' a) (ps' b)) := by
  unfold Lips.angle
  rw [H.r_u, H.r_d]
  rcases (ps a).r_u with _ | u
  · rfl
  rcases (ps b).r_d with _ | d
  · rfl
  show _ = _
  simp only [dot2, Pi.smul_apply, smul_eq_mul]; ring

theorem square_scale (H : Scaled α β μ ps ps') (a b : Fin n) :
    WRes (fun x y => y = (β a * β b) * x) (Lips.square (ps a) (ps b)) (Lips.square (ps' a) (ps' b)) := by
  unfold Lips.square
  rw [H.l_u, H.l_d]
  rcases (ps a).l_d with _ | u
  · rfl
  rcases (ps b).l_u with _ | d
  · rfl
  show _ = _
  simp only [dot2, Pi.smul_apply, smul_eq_mul]; ring

theorem nb_scale (H : Scaled α β μ ps ps') (o e : Char) (a d : Fin n) (ms : List (Slot n)) :
    WRes (fun x y => y = ((if o = '⟨' then α a else β a) * (if e = '⟩' then α d else β d) * μ ^ ms.length) * x)
      (computeNB ps o a ms d e) (computeNB ps' o a ms d e) := by
  have left : (if o = '⟨' then need (ps' a).r_u else need (ps' a).l_d) =
      ((if o = '⟨' then need (ps a).r_u else need (ps a).l_d).map ((if o = '⟨' then α a else β a) • ·)) := by
    rw [H.r_u, H.l_d]
    split
    · rcases (ps a).r_u with _ | u <;> rfl
    · rcases (ps a).l_d with _ | u <;> rfl
  have right : (if e = '⟩' then need (ps' d).r_d else need (ps' d).l_u) =
      ((if e = '⟩' then need (ps d).r_d else need (ps d).l_u).map ((if e = '⟩' then α d else β d) • ·)) := by
    rw [H.r_d, H.l_u]
    split
    · rcases (ps d).r_d with _ | u <;> rfl
    · rcases (ps d).l_u with _ | u <;> rfl
  unfold computeNB
  by_cases hse : nbSyntaxError ms.length o e = true
  · rw [if_pos hse, if_pos hse]; rfl
  rw [if_neg hse, if_neg hse, left, right]
  generalize (if o = '⟨' then need (ps a).r_u else need (ps a).l_d) = u
  generalize (if e = '⟩' then need (ps d).r_d else need (ps d).l_u) = w
  generalize (if o = '⟨' then α a else β a) = x
  generalize (if e = '⟩' then α d else β d) = y
  rcases u with _ | u
  · rfl
  rcases w with _ | w
  · rfl
  show _ = _
  rw [H.chain_eq]
  simp only [dot2, vecMul, dotProduct, Fin.sum_univ_two, Pi.smul_apply, Matrix.smul_apply, smul_eq_mul]
  ring

theorem sumR2_scale (H : Scaled α β μ ps ps') (ls : List (Fin n)) : sumR2 ps' ls = μ • sumR2 ps ls := by
  induction ls with
  | nil => simp [sumR2]
  | cons l ls ih => rw [sumR2_cons, sumR2_cons, ih, H.r2, smul_add]

theorem sumR2b_scale (H : Scaled α β μ ps ps') (ls : List (Fin n)) : sumR2b ps' ls = μ • sumR2b ps ls := by
  induction ls with
  | nil => simp [sumR2b]
  | cons l ls ih =>
    have e : ∀ q : Point K n, Lips.sumR2b q (l :: ls) = (q l).r2b + Lips.sumR2b q ls := by
      intro q; simp [Lips.sumR2b]
    rw [e, e, ih, H.r2b, smul_add]

theorem tr_scale (H : Scaled α β μ ps ps') (ms : List (Slot n)) : computeTr ps' ms = μ ^ ms.length * computeTr ps ms := by
  rw [computeTr, computeTr, H.chain_eq, trace_smul, smul_eq_mul]

theorem s_scale (H : Scaled α β μ ps ps') (ls : List (Fin n)) : computeS ps' ls = μ ^ 2 * computeS ps ls := by
  rw [computeS, computeS, H.sumR2_scale, pyDet_eq_det, pyDet_eq_det, det_smul, Fintype.card_fin]

theorem dot_scale (H : Scaled α β μ ps ps') (a b : List (Fin n)) :
    trace (sumR2 ps' a * sumR2b ps' b) = μ ^ 2 * trace (sumR2 ps a * sumR2b ps b) := by
  rw [H.sumR2_scale, H.sumR2b_scale, Matrix.smul_mul, Matrix.mul_smul, smul_smul, trace_smul, smul_eq_mul, sq]

theorem delta_scale (H : Scaled α β μ ps ps') (m : ℕ) (corner : Fin (m + 2) → List (Fin n)) :
    computeDelta ps' m corner = (μ ^ 2) ^ (m + 1) * computeDelta ps m corner := by
  have e : (gram ps' (m + 2) corner).submatrix Fin.castSucc Fin.castSucc =
      μ ^ 2 • (gram ps (m + 2) corner).submatrix Fin.castSucc Fin.castSucc := by
    ext i j
    simp only [submatrix_apply, gram, Matrix.of_apply, Matrix.smul_apply, smul_eq_mul, H.dot_scale]
    ring
  rw [computeDelta, computeDelta, e, pyDet_eq_det, pyDet_eq_det, det_smul, Fintype.card_fin]
  ring

theorem deltaShort_scale (H : Scaled α β μ ps ps') (a b : List (Fin n)) : computeDeltaShort ps' a b = μ ^ 4 * computeDeltaShort ps a b := by
  rw [computeDeltaShort, computeDeltaShort, H.dot_scale, H.sumR2_scale, H.sumR2b_scale, pyDet_eq_det, pyDet_eq_det, pyDet_eq_det, pyDet_eq_det,
    det_smul, det_smul, Fintype.card_fin]
  ring

theorem omega_scale (H : Scaled α β μ ps ps') (a b d : List (Fin n)) :
    WRes (fun x y => y = μ ^ 4 * x) (computeOmega ps a b d) (computeOmega ps' a b d) := by
  unfold computeOmega
  cases a with
  | nil => rfl
  | cons a as =>
    show _ = _
    simp only [H.s_scale]; ring

theorem pi_scale (H : Scaled α β μ ps ps') (a d : List (Fin n)) : WRes (fun x y => y = μ ^ 2 * x) (computePi ps a d) (computePi ps' a d) := by
  unfold computePi
  rcases a with _ | ⟨a, _ | ⟨a', as⟩⟩
  · rfl
  · rfl
  · show _ = _
    simp only [H.s_scale]; ring

theorem d5_scale (H : Scaled α β μ ps ps') (l1 l2 l3 l4 l5 : Fin n) : computeD5 ps' l1 l2 l3 l4 l5 = μ ^ 8 * computeD5 ps l1 l2 l3 l4 l5 := by
  simp only [computeD5, H.s_scale]; ring

end Scaled

/-! ### Texts -/

/-- The factor of the spinor of a label that is written, `α₀` if no particle has it. -/
def labelled (α : Fin n → K) (α₀ : K) (t : List Char) : K :=
  match readLabel n t with
  | .ok k => α k
  | .error _ => α₀

/-- What an invariant is multiplied by. -/
def Form.factor (α β : Fin n → K) (α₀ β₀ μ : K) : Form → Option K
  | .angle a b => some (labelled α α₀ a * labelled α α₀ b)
  | .square a b => some (labelled β β₀ a * labelled β β₀ b)
  | .string o a ms d c => some ((if o = '⟨' then labelled α α₀ a else labelled β β₀ a) * (if c = '⟩' then labelled α α₀ d else labelled β β₀ d) * μ ^ ms.length)
  | .tr5 _ => some (μ ^ 4)
  | .tr es => some (μ ^ es.length)
  | .omega _ => some (μ ^ 4)
  | .pi _ => some (μ ^ 2)
  | .delta [_] => some (μ ^ 4)
  | .delta cs => some ((μ ^ 2) ^ (cs.length - 1))
  | .d5 => some (μ ^ 8)
  | .massOf _ => some (μ ^ 2)
  | .mandelstam _ => some (μ ^ 2)
  | _ => none

/-- Outcomes of which the second is the first one multiplied, or the same exception. -/
def WOut (f : K) : Option (Except Err (Val K)) → Option (Except Err (Val K)) → Prop
  | some (.ok (.num x)), some (.ok (.num y)) => y = f * x
  | some (.error e), some (.error e') => e = e'
  | none, none => True
  | _, _ => False

theorem WOut.of_res {f : K} {x y : Except Err K} (h : WRes (fun a b => b = f * a) x y) : WOut f (some (asNum x)) (some (asNum y)) := by
  rcases h.cases with ⟨e, rfl, rfl⟩ | ⟨a, b, rfl, rfl, h⟩
  · rfl
  · exact h

/-- The parts of the text of tr5. -/
theorem unpack4_bars {m a b c d : List Char} (h : unpack4 m = .ok (a, b, c, d)) : ∀ x ∈ [a, b, c, d], '|' ∉ x := by
  unfold unpack4 at h
  split at h
  · rename_i a' b' c' d' e
    cases h
    rw [← e]
    split
    · intro x hx
      exact not_mem_of_mem_splitOn hx
    · rename_i hb
      intro x hx
      obtain ⟨y, hy, rfl⟩ := List.mem_map.mp hx
      intro hxy
      rw [List.mem_singleton] at hxy
      exact hb (hxy ▸ hy)
  · cases h

theorem rotateText_mem {k : ℕ} {q : List Char × List Char × List Char × List Char} {a b c d : List Char} (h : rotateText k q = some (a, b, c, d))
    (P : List Char → Prop) (hq : P q.1 ∧ P q.2.1 ∧ P q.2.2.1 ∧ P q.2.2.2) : P a ∧ P b ∧ P c ∧ P d := by
  induction k generalizing q with
  | zero => cases h
  | succ k ih =>
    obtain ⟨a', b', c', d'⟩ := q
    rw [rotateText] at h
    split at h
    · cases h; exact hq
    · exact ih h ⟨hq.2.1, hq.2.2.1, hq.2.2.2, hq.1⟩

theorem tr5Text_form {o e o' e' : Char} {a b c d a' d' : List Char} {ms : List (List Char)} (ha : '|' ∉ a) (hb : '|' ∉ b) (hc : '|' ∉ c) (hd : '|' ∉ d)
    (h : classify (tr5Text o a b c d e) = .string o' a' ms d' e') : o' = o ∧ e' = e ∧ a' = a ∧ d' = a ∧ ms = [b, c, d] := by
  have hr := (C92_reads (by simp)).mp h
  generalize ht : tr5Text o a b c d e = t at hr
  cases hr with
  | @string _ _ m _ _ ho he h1 h2 h3 =>
    have b1 : '|' ∉ a' := bar_digits ((isDigits_lang _).mpr h1)
    have b2 : '|' ∉ d' := bar_digits ((isDigits_lang _).mpr h3)
    rw [tr5Text, List.append_assoc, List.singleton_append] at ht
    obtain ⟨e1, e2⟩ := List.cons.inj ht
    obtain ⟨e2, e3⟩ := List.append_inj' e2 rfl
    have e4 := congrArg (List.splitOn '|') e2
    rw [List.splitOn_intercalate _ (by
      intro x hx
      simp only [List.mem_cons, List.not_mem_nil, or_false] at hx
      rcases hx with rfl | rfl | rfl | rfl | rfl <;> assumption) (by simp)] at e4
    have s1 : (a' ++ '|' :: (m ++ '|' :: d')).splitOn '|' = a' :: (m.splitOn '|' ++ [d']) := by
      rw [List.splitOn_append_cons_self_of_not_mem b1, List.splitOn_append_cons_self, List.splitOn_eq_singleton b2]
    rw [s1] at e4
    obtain ⟨e5, e6⟩ := List.cons.inj e4
    have e7 : [b, c, d] ++ [a] = m.splitOn '|' ++ [d'] := e6
    obtain ⟨e8, e9⟩ := List.append_inj' e7 rfl
    exact ⟨e1.symm, (List.cons.inj e3).1.symm, e5.symm, (List.cons.inj e9).1.symm, e8.symm⟩

theorem mapM_ok_length {α β : Type*} {f : α → Except Err β} {l : List α} {r : List β} (h : l.mapM f = .ok r) : r.length = l.length := by
  induction l generalizing r with
  | nil => rw [List.mapM_nil] at h; cases h; rfl
  | cons a l ih =>
    rw [List.mapM_cons] at h
    rcases h1 : f a with x | x <;> rw [h1] at h
    · cases h
    rcases h2 : List.mapM f l with y | y <;> rw [h2] at h
    · cases h
    cases h
    rw [List.length_cons, List.length_cons, ih h2]

namespace Scaled

variable {α β : Fin n → K} {α₀ β₀ μ : K} {ps ps' : Point K n}

theorem string_scale (H : Scaled α β μ ps ps') (o e : Char) (a d : List Char) (ms : List (List Char)) :
    WRes (fun x y => y = ((if o = '⟨' then labelled α α₀ a else labelled β β₀ a) * (if e = '⟩' then labelled α α₀ d else labelled β β₀ d) * μ ^ ms.length) * x)
      (evalString ps o a ms d e) (evalString ps' o a ms d e) := by
  unfold evalString
  by_cases hse : nbSyntaxError ms.length o e = true
  · rw [if_pos hse, if_pos hse]; rfl
  rw [if_neg hse, if_neg hse]
  unfold labelled
  rcases readLabel n a with x | k
  · rfl
  rcases hm : readSlots n ms with x | ks
  · rfl
  rcases readLabel n d with x | k'
  · rfl
  have := H.nb_scale o e k k' ks
  rw [readSlots_length hm] at this
  exact this

theorem tr5_scale (H : Scaled α β μ ps ps') (m : List Char) : WOut (μ ^ 4) ((evalTr5 ps m).map asNum) ((evalTr5 ps' m).map asNum) := by
  unfold evalTr5
  rcases hu : unpack4 m with e | ⟨a, b, c, d⟩
  · rfl
  rcases hr : rotateText 4 (a, b, c, d) with _ | ⟨a', b', c', d'⟩
  · simp only [hr]; rfl
  have hbars := unpack4_bars hu
  obtain ⟨h1, h2, h3, h4⟩ := rotateText_mem hr (fun x => '|' ∉ x) ⟨hbars _ (by simp), hbars _ (by simp), hbars _ (by simp), hbars _ (by simp)⟩
  have key : ∀ o e : Char, (o = '⟨' ∧ e ≠ '⟩') ∨ (o ≠ '⟨' ∧ e = '⟩') → labelled α 1 a' * labelled β 1 a' = μ ∨ (∃ x, readLabel n a' = .error x) →
      (evalStringText ps (tr5Text o a' b' c' d' e) = none ∧ evalStringText ps' (tr5Text o a' b' c' d' e) = none) ∨
      ∃ x y, evalStringText ps (tr5Text o a' b' c' d' e) = some x ∧ evalStringText ps' (tr5Text o a' b' c' d' e) = some y ∧
        WRes (fun x y => y = μ ^ 4 * x) x y := by
    intro o e hoe hab
    unfold evalStringText
    split
    · rename_i o1 a1 ms d1 e1 hcl
      obtain ⟨q1, q2, q3, q4, q5⟩ := tr5Text_form h1 h2 h3 h4 hcl
      rw [q1, q2, q3, q4, q5]
      refine .inr ⟨_, _, rfl, rfl, ?_⟩
      have hs := H.string_scale (α₀ := 1) (β₀ := 1) o e a' a' [b', c', d']
      rcases hab with hab | ⟨x, hx⟩
      · have hf : (if o = '⟨' then labelled α 1 a' else labelled β 1 a') * (if e = '⟩' then labelled α 1 a' else labelled β 1 a') *
            μ ^ [b', c', d'].length = μ ^ 4 := by
          rcases hoe with ⟨ho, he⟩ | ⟨ho, he⟩
          · rw [if_pos ho, if_neg he, hab, List.length_cons, List.length_cons, List.length_cons, List.length_nil]; ring
          · rw [if_neg ho, if_pos he, mul_comm (labelled β 1 a'), hab, List.length_cons, List.length_cons, List.length_cons, List.length_nil]; ring
        rw [hf] at hs
        exact hs
      · unfold evalString
        split
        · rfl
        · rw [hx]; rfl
    · exact .inl ⟨rfl, rfl⟩
  have hab : labelled α 1 a' * labelled β 1 a' = μ ∨ (∃ x, readLabel n a' = .error x) := by
    unfold labelled
    rcases readLabel n a' with x | k
    · exact .inr ⟨x, rfl⟩
    · exact .inl (H.both k)
  simp only [hr]
  rcases key '[' '⟩' (.inr ⟨by decide, rfl⟩) hab with ⟨k1, k2⟩ | ⟨x, x', k1, k2, k3⟩
  · rw [k1, k2]; trivial
  rcases key '⟨' ']' (.inl ⟨rfl, by decide⟩) hab with ⟨g1, g2⟩ | ⟨y, y', g1, g2, g3⟩
  · rw [k1, k2, g1, g2]
    rcases k3.cases with ⟨e, rfl, rfl⟩ | ⟨u, v, rfl, rfl, huv⟩
    · rfl
    · trivial
  rw [k1, k2, g1, g2]
  rcases k3.cases with ⟨e, rfl, rfl⟩ | ⟨u, v, rfl, rfl, huv⟩
  · rfl
  rcases g3.cases with ⟨e, rfl, rfl⟩ | ⟨u', v', rfl, rfl, huv'⟩
  · rfl
  show v - v' = μ ^ 4 * (u - u')
  rw [huv, huv', mul_sub]

theorem form_scale (H : Scaled α β μ ps ps') (fuel : ℕ) (f : Form) (k : K) (hk : f.factor α β α₀ β₀ μ = some k) :
    WOut k (evalForm ps fuel f) (evalForm ps' fuel f) := by
  have short : ∀ (ds : List Char) (g g' : List (Fin n) → List (Fin n) → List (Fin n) → Except Err K)
      (_ : ∀ A B C, WRes (fun x y => y = k * x) (g A B C) (g' A B C)) (F F' : Except Err (List (Fin n) × List (Fin n) × List (Fin n)) → Except Err (Val K)),
      (∀ A B C, F (.ok (A, B, C)) = asNum (g A B C)) → (∀ A B C, F' (.ok (A, B, C)) = asNum (g' A B C)) → (∀ e, F (.error e) = .error e) →
      (∀ e, F' (.error e) = .error e) → WOut k ((shortCorners n fuel ds).map F) ((shortCorners n fuel ds).map F') := by
    intro ds g g' hg F F' h1 h2 h3 h4
    rcases shortCorners n fuel ds with _ | e | ⟨A, B, C⟩
    · trivial
    · rw [Option.map_some, Option.map_some, h3, h4]; rfl
    · rw [Option.map_some, Option.map_some, h1, h2]; exact .of_res (hg A B C)
  cases f with
  | tr5 m => cases hk; exact H.tr5_scale m
  | tr es =>
    cases hk
    simp only [evalForm]
    rcases hr : readSlots n es with e | ks
    · rfl
    · show _ = _
      rw [H.tr_scale, readSlots_length hr]
  | omega ds =>
    cases hk
    exact short ds (fun A B C => computeOmega ps A B C) (fun A B C => computeOmega ps' A B C) (fun A B C => H.omega_scale A B C) _ _
      (fun _ _ _ => rfl) (fun _ _ _ => rfl) (fun _ => rfl) (fun _ => rfl)
  | pi ds =>
    cases hk
    exact short ds (fun A _ C => computePi ps A C) (fun A _ C => computePi ps' A C) (fun A B C => H.pi_scale A C) _ _
      (fun _ _ _ => rfl) (fun _ _ _ => rfl) (fun _ => rfl) (fun _ => rfl)
  | delta cs =>
    have hd : ∀ cs : List (List Char), WRes (fun x y => y = (μ ^ 2) ^ (cs.length - 1) * x) (evalDelta ps cs) (evalDelta ps' cs) := by
      intro cs
      unfold evalDelta
      rcases hm : List.mapM (readDigits n) cs with e | _ | ⟨c0, _ | ⟨c1, ks⟩⟩
      · rfl
      · rfl
      · rfl
      · have hlen : (c0 :: c1 :: ks).length = cs.length := mapM_ok_length hm
        show _ = _
        rw [H.delta_scale, show cs.length - 1 = ks.length + 1 by rw [← hlen]; rfl]
    rcases cs with _ | ⟨ds, _ | ⟨d, cs⟩⟩
    · cases hk; exact .of_res (hd [])
    · cases hk
      exact short ds (fun A B _ => .ok (computeDeltaShort ps A B)) (fun A B _ => .ok (computeDeltaShort ps' A B))
        (fun A B _ => H.deltaShort_scale A B) _ _ (fun _ _ _ => rfl) (fun _ _ _ => rfl) (fun _ => rfl) (fun _ => rfl)
    · cases hk; exact .of_res (hd (ds :: d :: cs))
  | d5 =>
    cases hk
    simp only [evalForm]
    split
    · exact H.d5_scale _ _ _ _ _
    · rfl
  | massOf t =>
    cases hk
    simp only [evalForm]
    rcases readDigits n (t.drop (t.length - 1)) with e | ls
    · rfl
    · exact H.s_scale ls
  | mandelstam ds =>
    cases hk
    simp only [evalForm]
    rcases readDigits n ds with e | ls
    · rfl
    · exact H.s_scale ls
  | angle a b =>
    cases hk
    simp only [evalForm, labelled]
    rcases readLabel n a with e | a
    · rfl
    rcases readLabel n b with e | b
    · rfl
    exact .of_res (H.angle_scale a b)
  | square a b =>
    cases hk
    simp only [evalForm, labelled]
    rcases readLabel n a with e | a
    · rfl
    rcases readLabel n b with e | b
    · rfl
    exact .of_res (H.square_scale a b)
  | string o a ms d e => cases hk; exact .of_res (H.string_scale o e a d ms)
  | Au _ | Ad _ | Su _ | Sd _ | openBegin _ _ _ | openEnd _ _ _ | doubleOpen _ | internalMass _ | expression => cases hk

theorem leaf_scale (H : Scaled α β μ ps ps') (fuel : ℕ) (name u : List Char) (hu : rsubsDict name boldDigits = .ok u) (k : K)
    (hk : (classify u).factor α β α₀ β₀ μ = some k) : WRes (fun x y => y = k * x) (leafNum ps fuel name) (leafNum ps' fuel name) := by
  have := H.form_scale fuel _ k hk
  unfold leafNum computeText
  rw [hu]
  simp only
  revert this
  generalize evalForm ps fuel (classify u) = x
  generalize evalForm ps' fuel (classify u) = y
  intro this
  rcases x with _ | x | x <;> rcases y with _ | y | y
  · rfl
  · exact this.elim
  · exact this.elim
  · exact this.elim
  · exact this
  · exact this.elim
  · cases x <;> exact this.elim
  · cases x <;> exact this.elim
  · cases x <;> cases y <;> first | exact this.elim | exact this

/-- `compute` of the text of one invariant, which is not an expression. -/
theorem call_scale (H : Scaled α β μ ps ps') (fuel : ℕ) (name u : List Char) (hu : rsubsDict name boldDigits = .ok u) (k : K)
    (hk : (classify u).factor α β α₀ β₀ μ = some k) :
    callNumber ps' fuel name = (callNumber ps fuel name).map (Except.map (k * ·)) := by
  have hne : classify u ≠ .expression := fun h => by rw [h] at hk; cases hk
  have := H.form_scale fuel _ k hk
  unfold callNumber callText
  rw [hu]
  simp only [if_neg hne]
  revert this
  generalize evalForm ps fuel (classify u) = x
  generalize evalForm ps' fuel (classify u) = y
  intro this
  rcases x with _ | x | x <;> rcases y with _ | y | y
  · rfl
  · exact this.elim
  · exact this.elim
  · exact this.elim
  · obtain rfl : x = y := this
    rfl
  · exact this.elim
  · cases x <;> exact this.elim
  · cases x <;> exact this.elim
  · cases x <;> cases y <;> first | exact this.elim | skip
    rename_i a b
    obtain rfl : b = k * a := this
    rfl

end Scaled

/-! ### Little group -/

theorem LittleGroup.scaled {c : Ctx K} {A : Fin n} {t : K} {ps ps' : Point K n} (H : LittleGroup c A t ps ps') :
    Scaled (fun k => if k = A then t else 1) (fun k => if k = A then t⁻¹ else 1) 1 ps ps' := by
  have hm := C21_momentum_unchanged c A t ps ps' H
  obtain ⟨r, l, hr, hl, hr', hl'⟩ := H.spinors
  have s1 : HasSpinors c (ps A) r l := ⟨H.cons, hr, hl⟩
  have s2 : HasSpinors c (ps' A) (t • r) (t⁻¹ • l) := ⟨H.cons', hr', hl'⟩
  refine ⟨fun k => ?_, fun k => by rw [(hm k).1, one_smul], fun k => by rw [(hm k).2, one_smul], fun k => ?_, fun k => ?_, fun k => ?_, fun k => ?_⟩
  · by_cases hk : k = A
    · simp [hk, H.t0]
    · simp [hk]
  all_goals by_cases hk : k = A
  any_goals rw [H.others k hk, if_neg hk]; simp
  · subst hk; rw [hr, hr']; simp
  · subst hk
    rw [s1.r_u, s2.r_u]
    simp only [Option.map_some, if_true, Option.some.injEq]
    ext i; fin_cases i <;> simp
  · subst hk; rw [hl, hl']; simp
  · subst hk
    rw [s1.l_u, s2.l_u]
    simp only [Option.map_some, if_true, Option.some.injEq]
    ext i; fin_cases i <;> simp

theorem labelled_phase (A : Fin n) (t : K) (u : List Char) : labelled (fun k => if k = A then t else 1) 1 u = t ^ isLabel A u := by
  unfold labelled isLabel readLabel label
  by_cases h : 1 ≤ Nat.ofDigitChars 10 u 0 ∧ Nat.ofDigitChars 10 u 0 ≤ n
  · rw [dif_pos h]
    simp only [Fin.ext_iff]
    by_cases h' : Nat.ofDigitChars 10 u 0 = A + 1
    · rw [if_pos (by omega), if_pos h', zpow_one]
    · rw [if_neg (by omega), if_neg h', zpow_zero]
  · rw [dif_neg h]
    have := A.2
    rw [if_neg (by omega), zpow_zero]

theorem factor_phase (A : Fin n) {t : K} (ht : t ≠ 0) (f : Form) {w : ℤ} (hw : f.phase A = some w) :
    f.factor (fun k => if k = A then t else 1) (fun k => if k = A then t⁻¹ else 1) 1 1 1 = some (t ^ w) := by
  have inv : ∀ u : List Char, (t⁻¹) ^ isLabel A u = t ^ (-isLabel A u) := fun u => by rw [inv_zpow, zpow_neg]
  cases f with
  | angle a b => cases hw; rw [Form.factor, labelled_phase, labelled_phase, zpow_add₀ ht]
  | square a b => cases hw; rw [Form.factor, labelled_phase, labelled_phase, inv, inv, ← zpow_add₀ ht]; rfl
  | string o a ms d e =>
    cases hw
    rw [Form.factor, labelled_phase, labelled_phase, labelled_phase, labelled_phase, inv, inv, one_pow, mul_one, zpow_add₀ ht]
    split_ifs <;> simp
  | delta cs => cases hw; rcases cs with _ | ⟨d, _ | ⟨d', cs⟩⟩ <;> simp [Form.factor]
  | tr5 _ | tr _ | omega _ | pi _ | d5 | massOf _ | mandelstam _ => cases hw; simp [Form.factor]
  | Au _ | Ad _ | Su _ | Sd _ | openBegin _ _ _ | openEnd _ _ _ | doubleOpen _ | internalMass _ | expression => cases hw

/-- C122: under `|A⟩ → t|A⟩`, `[A| → [A|/t` an invariant is multiplied by `t` to the number of its angle ends `A` minus the number of its square
ends `A`, whatever its text is; what raises an exception raises the same one. -/
theorem C122_little_group (c : Ctx K) (A : Fin n) (t : K) (ps ps' : Point K n) (H : LittleGroup c A t ps ps') (fuel : ℕ) (name : List Char) (W : ℤ)
    (hW : nameWeight (Form.phase A) name = some W) :
    callNumber ps' fuel name = (callNumber ps fuel name).map (Except.map (t ^ W * ·)) := by
  unfold nameWeight at hW
  split at hW
  · exact H.scaled.call_scale fuel name _ ‹_› _ (factor_phase A H.t0 _ hW)
  · cases hW

/-- C122: an expression the terms of which have one and the same weight has that weight. -/
theorem C122_little_group_expression (c : Ctx K) (A : Fin n) (t : K) (ps ps' : Point K n) (H : LittleGroup c A t ps ps') (fuel : ℕ) (ts : List WTok)
    (hx : Expression ts) (hc : classify (exprText ts) = .expression) (lead : ℕ) (its : List Item) (e : Ast EAtom)
    (hts : ts.map WTok.sym = written lead its) (hr : Reads .expr (its.map Item.tok) e) (hn : ∀ i ∈ its, ∀ a b, i.tok ≠ .atom (.rat a b))
    (hh : HiddenOk (its.map fun i => (i.tok, i.hidden))) (hl : ¬ LongExponent (its.map Item.tok)) :
    ∃ e', Reads .expr (taken false (its.map Item.tok)) e' ∧ ∀ W, e'.weight (nameWeight (Form.phase A)) = some W →
      callNumber ps' fuel (exprText ts) = (callNumber ps fuel (exprText ts)).map (Except.map (t ^ W * ·)) := by
  refine callNumber_scale H.t0 (fun name W hW => ?_) hx hc hts hr hn hh hl
  unfold nameWeight at hW
  split at hW
  · exact H.scaled.leaf_scale fuel name _ ‹_› _ (factor_phase A H.t0 _ hW)
  · cases hW

/-! ### Mass dimension -/

/-- `ps'` is `ps` with all spinors multiplied by `t`, and the momenta by the square of it; massive particles have no spinors. -/
structure Rescaled (c : Ctx K) (t : K) (ps ps' : Point K n) : Prop where
  t0 : t ≠ 0
  particles : ∀ k, (∃ r l, IsMassless c (ps k) r l ∧ IsMassless c (ps' k) (t • r) (t • l)) ∨
    ((ps' k).r2 = t ^ 2 • (ps k).r2 ∧ (ps' k).r2b = t ^ 2 • (ps k).r2b ∧
      ∀ q ∈ [ps k, ps' k], q.r_d = none ∧ q.r_u = none ∧ q.l_d = none ∧ q.l_u = none)

theorem Rescaled.scaled {c : Ctx K} {t : K} {ps ps' : Point K n} (H : Rescaled c t ps ps') : Scaled (fun _ => t) (fun _ => t) (t ^ 2) ps ps' := by
  have key : ∀ k, (ps' k).r2 = t ^ 2 • (ps k).r2 ∧ (ps' k).r2b = t ^ 2 • (ps k).r2b ∧ (ps' k).r_d = (ps k).r_d.map (t • ·) ∧
      (ps' k).r_u = (ps k).r_u.map (t • ·) ∧ (ps' k).l_d = (ps k).l_d.map (t • ·) ∧ (ps' k).l_u = (ps k).l_u.map (t • ·) := by
    intro k
    rcases H.particles k with ⟨r, l, h1, h2⟩ | ⟨h1, h2, h3⟩
    · refine ⟨?_, ?_, ?_, ?_, ?_, ?_⟩
      · rw [h1.r2, h2.r2]
        ext i j; fin_cases i <;> fin_cases j <;> simp [outer_apply] <;> ring
      · rw [h1.r2b, h2.r2b]
        ext i j; simp [outer_apply]; ring
      · rw [h1.r_d, h2.r_d]; rfl
      · rw [h1.r_u, h2.r_u]
        simp only [Option.map_some, Option.some.injEq]
        ext i; fin_cases i <;> simp
      · rw [h1.l_d, h2.l_d]; rfl
      · rw [h1.l_u, h2.l_u]
        simp only [Option.map_some, Option.some.injEq]
        ext i; fin_cases i <;> simp
    · obtain ⟨a1, a2, a3, a4⟩ := h3 (ps k) (by simp)
      obtain ⟨b1, b2, b3, b4⟩ := h3 (ps' k) (by simp)
      exact ⟨h1, h2, by rw [a1, b1]; rfl, by rw [a2, b2]; rfl, by rw [a3, b3]; rfl, by rw [a4, b4]; rfl⟩
  exact ⟨fun _ => (sq t).symm, fun k => (key k).1, fun k => (key k).2.1, fun k => (key k).2.2.1, fun k => (key k).2.2.2.1, fun k => (key k).2.2.2.2.1,
    fun k => (key k).2.2.2.2.2⟩

omit [Field K] in
theorem labelled_const (t : K) (u : List Char) : labelled (fun _ : Fin n => t) t u = t := by
  unfold labelled
  rcases readLabel n u with e | k <;> rfl

theorem factor_dimension (t : K) (f : Form) {w : ℤ} (hw : f.dimension = some w) :
    f.factor (fun _ : Fin n => t) (fun _ : Fin n => t) t t (t ^ 2) = some ((t ^ 2) ^ w) := by
  cases f with
  | angle a b => cases hw; rw [Form.factor, labelled_const, labelled_const, zpow_one, sq]
  | square a b => cases hw; rw [Form.factor, labelled_const, labelled_const, zpow_one, sq]
  | string o a ms d e =>
    cases hw
    rw [Form.factor, labelled_const, labelled_const, ite_self, ite_self, ← sq, ← pow_succ', ← zpow_natCast (t ^ 2) (ms.length + 1)]
    rfl
  | delta cs =>
    rcases cs with _ | ⟨d, _ | ⟨d', cs⟩⟩ <;> cases hw
    · show some (((t ^ 2) ^ 2) ^ _) = _
      rw [← pow_mul, ← zpow_natCast]; rfl
    · rw [Form.factor, ← zpow_natCast]; rfl
    · show some (((t ^ 2) ^ 2) ^ _) = _
      rw [← pow_mul, ← zpow_natCast]; rfl
  | tr5 _ | tr _ | omega _ | pi _ | d5 | massOf _ | mandelstam _ => cases hw; exact congrArg some (zpow_natCast (t ^ 2) _).symm
  | Au _ | Ad _ | Su _ | Sd _ | openBegin _ _ _ | openEnd _ _ _ | doubleOpen _ | internalMass _ | expression => cases hw

/-- C122: when all spinors are multiplied by `t` an invariant is multiplied by `t ^ 2` to its mass dimension. -/
theorem C122_dimension (c : Ctx K) (t : K) (ps ps' : Point K n) (H : Rescaled c t ps ps') (fuel : ℕ) (name : List Char) (W : ℤ)
    (hW : nameWeight Form.dimension name = some W) :
    callNumber ps' fuel name = (callNumber ps fuel name).map (Except.map ((t ^ 2) ^ W * ·)) := by
  unfold nameWeight at hW
  split at hW
  · exact H.scaled.call_scale fuel name _ ‹_› _ (factor_dimension t _ hW)
  · cases hW

/-- C122: the same for an expression the terms of which have one and the same dimension. -/
theorem C122_dimension_expression (c : Ctx K) (t : K) (ps ps' : Point K n) (H : Rescaled c t ps ps') (fuel : ℕ) (ts : List WTok)
    (hx : Expression ts) (hc : classify (exprText ts) = .expression) (lead : ℕ) (its : List Item) (e : Ast EAtom)
    (hts : ts.map WTok.sym = written lead its) (hr : Reads .expr (its.map Item.tok) e) (hn : ∀ i ∈ its, ∀ a b, i.tok ≠ .atom (.rat a b))
    (hh : HiddenOk (its.map fun i => (i.tok, i.hidden))) (hl : ¬ LongExponent (its.map Item.tok)) :
    ∃ e', Reads .expr (taken false (its.map Item.tok)) e' ∧ ∀ W, e'.weight (nameWeight Form.dimension) = some W →
      callNumber ps' fuel (exprText ts) = (callNumber ps fuel (exprText ts)).map (Except.map ((t ^ 2) ^ W * ·)) := by
  refine callNumber_scale (pow_ne_zero 2 H.t0) (fun name W hW => ?_) hx hc hts hr hn hh hl
  unfold nameWeight at hW
  split at hW
  · exact H.scaled.leaf_scale fuel name _ ‹_› _ (factor_dimension t _ hW)
  · cases hW

end Lips
