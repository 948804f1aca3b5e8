import Mathlib.Computability.Language
import Verif.Props.Front
import Verif.Props.Masses

/-!
Regular expressions as languages, and the automata of Model/Front.lean against them.
-/

namespace Lips

open Computability

/-! ### Regular expressions -/

/-- One character with the given property. -/
def oneOf (p : Char → Prop) : Language Char := {t | ∃ c, p c ∧ t = [c]}

/-- A fixed character. -/
abbrev ch (x : Char) : Language Char := oneOf (· = x)

/-- `\d`. -/
abbrev digitL : Language Char := oneOf fun c => '0' ≤ c ∧ c ≤ '9'

/-- `[\+|-]`. -/
abbrev opL : Language Char := oneOf fun c => c ∈ ['+', '|', '-']

/-- `L?`. -/
def opt (L : Language Char) : Language Char := 1 + L

/-- `L+`. -/
def plus (L : Language Char) : Language Char := L * L∗

/-- `(?:\(?(?:\d+[\+|-]?)+\)?\|?)+`, the middle of `pNB`. -/
def nbLang : Language Char :=
  plus (opt (ch '(') * plus (plus digitL * opt opL) * opt (ch ')') * opt (ch '|'))

/-- `(?:(?:\([\d]+(?:[\+|-]\d+)*\))|(?:[\d]+(?:[\+|-]\d+)*))+`, the middle of the open strings. -/
def obLang : Language Char :=
  plus (ch '(' * plus digitL * (opL * plus digitL)∗ * ch ')' + plus digitL * (opL * plus digitL)∗)

/-- `(?:(?:\([\d+\+|-]{1,}\))|(?:[\d+\+|-]{1,}))*`, the middle of `ptr`. -/
def trLang : Language Char := (ch '(' * plus (digitL + opL) * ch ')' + plus (digitL + opL))∗

/-! ### Membership -/

theorem nil_mem_oneOf_mul (p : Char → Prop) (L : Language Char) : [] ∈ oneOf p * L ↔ False := by
  simp only [Language.mem_mul, iff_false]
  rintro ⟨a, ⟨c, -, rfl⟩, b, -, h⟩
  simp at h

theorem cons_mem_oneOf_mul (p : Char → Prop) (L : Language Char) (c : Char) (t : List Char) :
    c :: t ∈ oneOf p * L ↔ p c ∧ t ∈ L := by
  simp only [Language.mem_mul]
  constructor
  · rintro ⟨a, ⟨x, hx, rfl⟩, b, hb, h⟩
    simp only [List.cons_append, List.nil_append, List.cons.injEq] at h
    obtain ⟨rfl, rfl⟩ := h
    exact ⟨hx, hb⟩
  · rintro ⟨h1, h2⟩
    exact ⟨[c], ⟨c, h1, rfl⟩, t, h2, rfl⟩

theorem nil_mem_one : ([] : List Char) ∈ (1 : Language Char) ↔ True := by simp [Language.mem_one]
theorem cons_mem_one (c : Char) (t : List Char) : c :: t ∈ (1 : Language Char) ↔ False := by simp [Language.mem_one]

theorem mem_sup (A B : Language Char) (t : List Char) : t ∈ A ⊔ B ↔ t ∈ A ∨ t ∈ B := Iff.rfl

theorem star_eq (L : Language Char) : L∗ = 1 + L * L∗ := (Language.one_add_self_mul_kstar_eq_kstar L).symm

theorem opt_mul (L M : Language Char) : opt L * M = M + L * M := by rw [opt, add_mul, one_mul]

theorem add_self_lang (L : Language Char) : L + L = L := by ext t; simp

/-! ### `pNB` -/

namespace NB

/-- The block that is repeated. -/
def block : Language Char := opt (ch '(') * plus (plus digitL * opt opL) * opt (ch ')') * opt (ch '|')
/-- Behind a closed block. -/
def S : Language Char := block∗
/-- Behind a closing parenthesis. -/
def cl : Language Char := opt (ch '|') * S
/-- Behind a sign. -/
def H : Language Char := (plus digitL * opt opL)∗ * (opt (ch ')') * cl)
/-- Behind a digit. -/
def G : Language Char := digitL∗ * (opt opL * H)

theorem paren_eq : plus (plus digitL * opt opL) * (opt (ch ')') * cl) = digitL * G := by
  unfold G H
  rw [plus, mul_assoc]
  generalize (plus digitL * opt opL)∗ = A
  simp only [plus, mul_assoc]

theorem block_mul : block * S = digitL * G + ch '(' * (digitL * G) := by
  rw [block, mul_assoc, mul_assoc, mul_assoc, ← cl, paren_eq, opt_mul]

theorem mem_S (t : List Char) : t ∈ S ↔ t ∈ (1 : Language Char) ∨ t ∈ digitL * G ∨ t ∈ ch '(' * (digitL * G) := by
  have : S = 1 + block * S := star_eq _
  conv_lhs => rw [this, block_mul]
  simp only [Language.mem_add]

theorem mem_cl (t : List Char) : t ∈ cl ↔ t ∈ S ∨ t ∈ ch '|' * S := by rw [cl, opt_mul, Language.mem_add]

theorem mem_H (t : List Char) : t ∈ H ↔ t ∈ cl ∨ t ∈ ch ')' * cl ∨ t ∈ digitL * G := by
  have : H = opt (ch ')') * cl + digitL * G := by
    rw [← paren_eq]
    conv_lhs => rw [H, star_eq, add_mul, one_mul]
    rfl
  rw [this, opt_mul]
  simp only [Language.mem_add, or_assoc]

theorem mem_G (t : List Char) : t ∈ G ↔ t ∈ H ∨ t ∈ opL * H ∨ t ∈ digitL * G := by
  have : G = opt opL * H + digitL * G := by
    conv_lhs => rw [G, star_eq, add_mul, one_mul, mul_assoc, ← G]
  conv_lhs => rw [this, opt_mul]
  simp only [Language.mem_add, or_assoc]

/-- What may follow in each state. -/
def res : NBq → Language Char
  | .start => digitL * G + ch '(' * (digitL * G)
  | .paren => digitL * G
  | .digit => G
  | .op => H
  | .close => cl
  | .bar => S
  | .dead => 0

/-- The accepting states. -/
def acc : NBq → Bool
  | .digit | .op | .close | .bar => true
  | _ => false

theorem nil_res (q : NBq) : [] ∈ res q ↔ acc q = true := by
  cases q <;> simp only [res, acc, mem_G, mem_H, mem_cl, mem_S, Language.mem_add, nil_mem_oneOf_mul, nil_mem_one] <;> simp [Language.notMem_zero]

theorem S_le_H {t : List Char} (h : t ∈ S) : t ∈ H := (mem_H t).mpr (Or.inl ((mem_cl t).mpr (Or.inl h)))

theorem cons_S (c : Char) (t : List Char) : c :: t ∈ S ↔ (c.isDigit = true ∧ t ∈ G) ∨ (c = '(' ∧ t ∈ digitL * G) := by
  rw [mem_S, cons_mem_one, cons_mem_oneOf_mul, cons_mem_oneOf_mul, false_or, isDigit_iff]

theorem cons_cl (c : Char) (t : List Char) : c :: t ∈ cl ↔ c :: t ∈ S ∨ (c = '|' ∧ t ∈ S) := by
  rw [mem_cl, cons_mem_oneOf_mul]

theorem cons_H (c : Char) (t : List Char) : c :: t ∈ H ↔ c :: t ∈ cl ∨ (c = ')' ∧ t ∈ cl) ∨ (c.isDigit = true ∧ t ∈ G) := by
  rw [mem_H, cons_mem_oneOf_mul, cons_mem_oneOf_mul, isDigit_iff]

theorem cons_G (c : Char) (t : List Char) : c :: t ∈ G ↔ c :: t ∈ H ∨ (isOp c = true ∧ t ∈ H) ∨ (c.isDigit = true ∧ t ∈ G) := by
  rw [mem_G, cons_mem_oneOf_mul, cons_mem_oneOf_mul, isDigit_iff]
  simp [isOp, or_assoc]

theorem cons_res (q : NBq) (c : Char) (t : List Char) : c :: t ∈ res q ↔ t ∈ res (nbStep q c) := by
  have e1 : ('(' : Char).isDigit = false := by decide
  have e2 : (')' : Char).isDigit = false := by decide
  have e3 : ('|' : Char).isDigit = false := by decide
  by_cases hd : c.isDigit = true
  · have o1 : isOp c = false := by
      by_contra h
      simp only [isOp, Bool.not_eq_false, Bool.or_eq_true, decide_eq_true_eq] at h
      rcases h with (h | h) | h <;> subst h <;> revert hd <;> decide
    have n1 : c ≠ '(' := by rintro rfl; simp [e1] at hd
    have n2 : c ≠ ')' := by rintro rfl; simp [e2] at hd
    have n3 : c ≠ '|' := by rintro rfl; simp [e3] at hd
    cases q <;> simp [nbStep, res, hd, cons_G, cons_H, cons_cl, cons_S, o1, n1, n2, n3, mem_sup, cons_mem_oneOf_mul, ← isDigit_iff, Language.notMem_zero]
  · simp only [Bool.not_eq_true] at hd
    by_cases h1 : c = '('
    · subst h1
      cases q <;> simp [nbStep, res, e1, cons_G, cons_H, cons_cl, cons_S, isOp, mem_sup, cons_mem_oneOf_mul, Language.notMem_zero]
    · by_cases h2 : c = ')'
      · subst h2
        cases q <;> simp [nbStep, res, e2, cons_G, cons_H, cons_cl, cons_S, isOp, mem_sup, cons_mem_oneOf_mul, Language.notMem_zero]
      · by_cases h3 : c = '|'
        · subst h3
          cases q <;> simp [nbStep, res, e3, cons_G, cons_H, cons_cl, cons_S, isOp, mem_sup, cons_mem_oneOf_mul, Language.notMem_zero]
          exact S_le_H
        · by_cases h4 : isOp c = true <;>
            cases q <;> simp [nbStep, res, hd, h1, h2, h3, h4, cons_G, cons_H, cons_cl, cons_S, mem_sup, cons_mem_oneOf_mul, ← isDigit_iff, Language.notMem_zero]

theorem foldl_res (t : List Char) (q : NBq) : t ∈ res q ↔ acc (t.foldl nbStep q) = true := by
  induction t generalizing q with
  | nil => exact nil_res q
  | cons c t ih => rw [cons_res, ih, List.foldl_cons]

end NB

theorem nbMiddle_iff (t : List Char) : nbMiddle t = true ↔ t ∈ nbLang := by
  have e : nbMiddle t = NB.acc (t.foldl nbStep .start) := by
    unfold nbMiddle
    generalize t.foldl nbStep .start = q
    cases q <;> rfl
  rw [e, ← NB.foldl_res]
  show _ ↔ t ∈ NB.block * NB.S
  rw [NB.block_mul]; rfl

/-! ### Open strings -/

namespace OB

/-- The repeated sign and label. -/
def more : Language Char := (opL * plus digitL)∗
/-- The block that is repeated. -/
def block : Language Char := ch '(' * plus digitL * more * ch ')' + plus digitL * more
/-- Behind a block. -/
def S : Language Char := block∗
/-- Behind a digit, outside parentheses. -/
def G : Language Char := digitL∗ * (more * S)
/-- Behind a digit, inside parentheses. -/
def I : Language Char := digitL∗ * (more * (ch ')' * S))

theorem block_mul : block * S = ch '(' * (digitL * I) + digitL * G := by
  simp only [block, add_mul, plus, G, I, mul_assoc]

theorem mem_S (t : List Char) : t ∈ S ↔ t ∈ (1 : Language Char) ∨ t ∈ ch '(' * (digitL * I) ∨ t ∈ digitL * G := by
  have : S = 1 + block * S := star_eq _
  conv_lhs => rw [this, block_mul]
  simp only [Language.mem_add]

theorem more_mul (L : Language Char) : more * L = L + opL * (digitL * (digitL∗ * (more * L))) := by
  conv_lhs => rw [more, star_eq, ← more]
  simp only [add_mul, one_mul, plus, mul_assoc]

theorem mem_G (t : List Char) : t ∈ G ↔ t ∈ S ∨ t ∈ opL * (digitL * G) ∨ t ∈ digitL * G := by
  have : G = more * S + digitL * G := by
    conv_lhs => rw [G, star_eq, add_mul, one_mul, mul_assoc, ← G]
  conv_lhs => rw [this, more_mul, ← G]
  simp only [Language.mem_add, or_assoc]

theorem mem_I (t : List Char) : t ∈ I ↔ t ∈ ch ')' * S ∨ t ∈ opL * (digitL * I) ∨ t ∈ digitL * I := by
  have : I = more * (ch ')' * S) + digitL * I := by
    conv_lhs => rw [I, star_eq, add_mul, one_mul, mul_assoc, ← I]
  conv_lhs => rw [this, more_mul, ← I]
  simp only [Language.mem_add, or_assoc]

/-- What may follow in each state. -/
def res : OBq → Language Char
  | .start => ch '(' * (digitL * I) + digitL * G
  | .digit => G
  | .op => digitL * G
  | .paren => digitL * I
  | .inDigit => I
  | .inOp => digitL * I
  | .close => S
  | .dead => 0

/-- The accepting states. -/
def acc : OBq → Bool
  | .digit | .close => true
  | _ => false

theorem nil_res (q : OBq) : [] ∈ res q ↔ acc q = true := by
  cases q <;> simp only [res, acc, mem_G, mem_I, mem_S, Language.mem_add, nil_mem_oneOf_mul, nil_mem_one] <;> simp [Language.notMem_zero]

theorem cons_S (c : Char) (t : List Char) : c :: t ∈ S ↔ (c = '(' ∧ t ∈ digitL * I) ∨ (c.isDigit = true ∧ t ∈ G) := by
  rw [mem_S, cons_mem_one, cons_mem_oneOf_mul, cons_mem_oneOf_mul, false_or, isDigit_iff]

theorem cons_G (c : Char) (t : List Char) : c :: t ∈ G ↔ c :: t ∈ S ∨ (isOp c = true ∧ t ∈ digitL * G) ∨ (c.isDigit = true ∧ t ∈ G) := by
  rw [mem_G, cons_mem_oneOf_mul, cons_mem_oneOf_mul, isDigit_iff]
  simp [isOp, or_assoc]

theorem cons_I (c : Char) (t : List Char) : c :: t ∈ I ↔ (c = ')' ∧ t ∈ S) ∨ (isOp c = true ∧ t ∈ digitL * I) ∨ (c.isDigit = true ∧ t ∈ I) := by
  rw [mem_I, cons_mem_oneOf_mul, cons_mem_oneOf_mul, cons_mem_oneOf_mul, isDigit_iff]
  simp [isOp, or_assoc]

theorem cons_res (q : OBq) (c : Char) (t : List Char) : c :: t ∈ res q ↔ t ∈ res (obStep q c) := by
  have e1 : ('(' : Char).isDigit = false := by decide
  have e2 : (')' : Char).isDigit = false := by decide
  have o : c.isDigit = true → isOp c = false := fun hd => by
    by_contra h
    simp only [isOp, Bool.not_eq_false, Bool.or_eq_true, decide_eq_true_eq] at h
    rcases h with (h | h) | h <;> subst h <;> revert hd <;> decide
  by_cases hd : c.isDigit = true
  · have n1 : c ≠ '(' := by rintro rfl; simp [e1] at hd
    have n2 : c ≠ ')' := by rintro rfl; simp [e2] at hd
    cases q <;> simp [obStep, res, hd, cons_G, cons_I, cons_S, o hd, n1, n2, mem_sup, cons_mem_oneOf_mul, ← isDigit_iff, Language.notMem_zero]
  · simp only [Bool.not_eq_true] at hd
    by_cases h1 : c = '('
    · subst h1
      cases q <;> simp [obStep, res, e1, cons_G, cons_I, cons_S, isOp, mem_sup, cons_mem_oneOf_mul, Language.notMem_zero]
    · by_cases h2 : c = ')'
      · subst h2
        cases q <;> simp [obStep, res, e2, cons_G, cons_I, cons_S, isOp, mem_sup, cons_mem_oneOf_mul, Language.notMem_zero]
      · by_cases h4 : isOp c = true <;>
          cases q <;> simp [obStep, res, hd, h1, h2, h4, cons_G, cons_I, cons_S, mem_sup, cons_mem_oneOf_mul, ← isDigit_iff, Language.notMem_zero]

theorem foldl_res (t : List Char) (q : OBq) : t ∈ res q ↔ acc (t.foldl obStep q) = true := by
  induction t generalizing q with
  | nil => exact nil_res q
  | cons c t ih => rw [cons_res, ih, List.foldl_cons]

end OB

theorem obMiddle_iff (t : List Char) : obMiddle t = true ↔ t ∈ obLang := by
  have e : obMiddle t = OB.acc (t.foldl obStep .start) := by
    unfold obMiddle
    generalize t.foldl obStep .start = q
    cases q <;> rfl
  rw [e, ← OB.foldl_res]
  show _ ↔ t ∈ OB.block * OB.S
  rw [OB.block_mul]; rfl

/-! ### Traces -/

namespace TR

/-- The characters inside. -/
def x : Language Char := digitL + opL
/-- The whole expression. -/
def L : Language Char := (ch '(' * plus x * ch ')' + plus x)∗
/-- Inside parentheses. -/
def I : Language Char := x∗ * (ch ')' * L)

theorem L_unfold : L = 1 + (ch '(' * (x * I) + x * (x∗ * L)) := by
  conv_lhs => rw [L, star_eq, ← L]
  simp only [add_mul, plus, mul_assoc, I]

theorem star_L : x∗ * L = L := by
  apply le_antisymm
  · apply kstar_mul_le_self
    conv_rhs => rw [L_unfold]
    have : L ≤ x∗ * L := by
      conv_rhs => rw [star_eq, add_mul, one_mul]
      exact le_self_add
    exact (mul_le_mul_right this x).trans (le_add_self.trans le_add_self)
  · conv_rhs => rw [star_eq, add_mul, one_mul]
    exact le_self_add

theorem mem_L (t : List Char) : t ∈ L ↔ t ∈ (1 : Language Char) ∨ t ∈ ch '(' * (x * I) ∨ t ∈ x * L := by
  conv_lhs => rw [L_unfold, star_L]
  simp only [Language.mem_add]

theorem mem_I (t : List Char) : t ∈ I ↔ t ∈ ch ')' * L ∨ t ∈ x * I := by
  conv_lhs => rw [I, star_eq, add_mul, one_mul, mul_assoc, ← I]
  simp only [Language.mem_add]

theorem nil_x (M : Language Char) : [] ∈ x * M ↔ False := by
  rw [x, add_mul, Language.mem_add, nil_mem_oneOf_mul, nil_mem_oneOf_mul, or_false]

theorem cons_x (M : Language Char) (c : Char) (t : List Char) : c :: t ∈ x * M ↔ (c.isDigit || isOp c) = true ∧ t ∈ M := by
  rw [x, add_mul, Language.mem_add, cons_mem_oneOf_mul, cons_mem_oneOf_mul, ← isDigit_iff]
  simp only [isOp, List.mem_cons, List.not_mem_nil, or_false, Bool.or_eq_true, decide_eq_true_eq]
  tauto

/-- What may follow in each state. -/
def res : TRq → Language Char
  | .out => L
  | .open0 => x * I
  | .open1 => I
  | .dead => 0

theorem nil_res (q : TRq) : [] ∈ res q ↔ q = .out := by
  cases q <;> simp only [res, mem_L, mem_I, nil_x, nil_mem_oneOf_mul, nil_mem_one] <;> simp [Language.notMem_zero]

theorem cons_res (q : TRq) (c : Char) (t : List Char) : c :: t ∈ res q ↔ t ∈ res (trStep q c) := by
  have e1 : ('(' : Char).isDigit = false := by decide
  have e2 : (')' : Char).isDigit = false := by decide
  have f1 : isOp '(' = false := by decide
  have f2 : isOp ')' = false := by decide
  cases q
  · show c :: t ∈ L ↔ t ∈ res (if c = '(' then .open0 else if c.isDigit || isOp c then .out else .dead)
    rw [mem_L, cons_mem_one, cons_mem_oneOf_mul, cons_x, false_or]
    split_ifs with h1 h2
    · subst h1; simp [e1, f1, res]
    · simp only [h1, h2, false_and, true_and, false_or]; rfl
    · simp only [h1, h2, false_and, res]; simp [Language.notMem_zero]
  · show c :: t ∈ x * I ↔ t ∈ res (if c.isDigit || isOp c then .open1 else .dead)
    rw [cons_x]
    split_ifs with h1
    · simp only [h1, true_and]; rfl
    · simp only [h1, res]; simp [Language.notMem_zero]
  · show c :: t ∈ I ↔ t ∈ res (if c.isDigit || isOp c then .open1 else if c = ')' then .out else .dead)
    rw [mem_I, cons_mem_oneOf_mul, cons_x]
    split_ifs with h1 h2
    · have : c ≠ ')' := by rintro rfl; simp [e2, f2] at h1
      simp only [h1, this, true_and, false_and, false_or]; rfl
    · subst h2; simp [e2, f2, res]
    · simp only [h1, h2, false_and, res]; simp [Language.notMem_zero]
  · simp [trStep, res, Language.notMem_zero]

theorem foldl_res (t : List Char) (q : TRq) : t ∈ res q ↔ t.foldl trStep q = .out := by
  induction t generalizing q with
  | nil => exact nil_res q
  | cons c t ih => rw [cons_res, ih, List.foldl_cons]

end TR

theorem trMiddle_iff (t : List Char) : trMiddle t = true ↔ t ∈ trLang := by
  unfold trMiddle
  rw [decide_eq_true_iff, ← TR.foldl_res]
  rfl

end Lips
