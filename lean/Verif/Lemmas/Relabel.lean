import Verif.Model.Front
import Verif.Spec.Names

/-! Reading texts in which digits are replaced by digits. -/

namespace Lips

/-- Digits become digits, zero stays, as does everything else. -/
structure DigitMap (m : Char → Char) : Prop where
  other : ∀ c, c.isDigit = false → m c = c
  digit : ∀ c, c.isDigit = true → (m c).isDigit = true
  zero : ∀ c, m c = '0' ↔ c = '0'

namespace DigitMap

variable {m : Char → Char}

theorem isDigit (h : DigitMap m) (c : Char) : (m c).isDigit = c.isDigit := by
  cases hc : c.isDigit
  · rw [h.other c hc, hc]
  · exact h.digit c hc

theorem eq_iff (h : DigitMap m) {x : Char} (hx : x.isDigit = false) (c : Char) : m c = x ↔ c = x := by
  cases hc : c.isDigit
  · rw [h.other c hc]
  · refine ⟨fun e => ?_, fun e => ?_⟩
    · rw [← e, h.digit c hc] at hx; cases hx
    · rw [e, hx] at hc; cases hc

theorem fix (h : DigitMap m) {x : Char} (hx : x.isDigit = false) : m x = x := h.other x hx

theorem fixed (h : DigitMap m) {l : List Char} (hl : ∀ x ∈ l, x.isDigit = false) : l.map m = l := by
  induction l with
  | nil => rfl
  | cons a l ih => rw [List.map_cons, h.fix (hl a (by simp)), ih fun x hx => hl x (by simp [hx])]

theorem mem_iff (h : DigitMap m) {l : List Char} (hl : ∀ x ∈ l, x.isDigit = false) (c : Char) : m c ∈ l ↔ c ∈ l := by
  refine ⟨fun e => ?_, fun e => ?_⟩
  · rwa [← (h.eq_iff (hl _ e) c).1 rfl] at e
  · rwa [h.fix (hl c e)]

theorem isDigits (h : DigitMap m) (t : List Char) : isDigits (t.map m) = isDigits t := by
  simp only [Lips.isDigits, List.isEmpty_map, List.all_map, Function.comp_def, h.isDigit]

theorem isPrefixOf (h : DigitMap m) : ∀ {pre : List Char}, (∀ x ∈ pre, x.isDigit = false) → ∀ t : List Char, pre.isPrefixOf (t.map m) = pre.isPrefixOf t
  | [], _, _ => by simp
  | _ :: _, _, [] => by simp
  | a :: pre, hp, c :: t => by
    simp only [List.map_cons, List.isPrefixOf_cons_cons]
    rw [h.isPrefixOf (fun x hx => hp x (by simp [hx])) t]
    congr 1
    have := h.eq_iff (hp a (by simp)) c
    rw [Bool.eq_iff_iff]
    simp only [beq_iff_eq]
    exact ⟨fun e => (this.1 e.symm).symm, fun e => (this.2 e.symm).symm⟩

theorem splitOn (h : DigitMap m) {x : Char} (hx : x.isDigit = false) (t : List Char) : (t.map m).splitOn x = (t.splitOn x).map (List.map m) := by
  induction t with
  | nil => simp [List.splitOn]
  | cons c t ih =>
    simp only [List.splitOn, List.map_cons, List.splitOnP_cons_eq_if_modifyHead] at ih ⊢
    have e : (m c == x) = (c == x) := by
      rw [Bool.eq_iff_iff]; simp [h.eq_iff hx]
    rw [e]
    split
    · rw [ih]; rfl
    · rw [ih]
      rcases List.splitOnP (fun y => y == x) t with _ | ⟨a, l⟩ <;> simp

theorem intercalate (h : DigitMap m) : ∀ ls : List (List Char), (['|'].intercalate ls).map m = ['|'].intercalate (ls.map (List.map m))
  | [] => rfl
  | [a] => by simp [List.intercalate]
  | a :: b :: ls => by
    have ih := h.intercalate (b :: ls)
    simp only [List.intercalate, List.map_cons, List.intersperse_cons_cons, List.flatten_cons, List.map_append] at ih ⊢
    rw [ih]
    have : m '|' = '|' := h.fix (by decide)
    simp [this]

theorem foldl {β : Type*} {f : β → Char → β} (hf : ∀ q c, f q (m c) = f q c) (q : β) (t : List Char) : (t.map m).foldl f q = t.foldl f q := by
  rw [List.foldl_map]
  congr
  funext q c
  exact hf q c

theorem isOp (h : DigitMap m) (c : Char) : isOp (m c) = isOp c := by
  simp [Lips.isOp, h.eq_iff (x := '+') (by decide), h.eq_iff (x := '|') (by decide), h.eq_iff (x := '-') (by decide)]

theorem nbMiddle (h : DigitMap m) (t : List Char) : nbMiddle (t.map m) = nbMiddle t := by
  unfold Lips.nbMiddle
  rw [foldl]
  intro q c
  cases q <;> simp only [nbStep, h.isDigit, h.isOp, h.eq_iff (x := '(') (by decide), h.eq_iff (x := ')') (by decide), h.eq_iff (x := '|') (by decide)]

theorem obMiddle (h : DigitMap m) (t : List Char) : obMiddle (t.map m) = obMiddle t := by
  unfold Lips.obMiddle
  rw [foldl]
  intro q c
  cases q <;> simp only [obStep, h.isDigit, h.isOp, h.eq_iff (x := '(') (by decide), h.eq_iff (x := ')') (by decide)]

theorem trMiddle (h : DigitMap m) (t : List Char) : trMiddle (t.map m) = trMiddle t := by
  unfold Lips.trMiddle
  rw [foldl]
  intro q c
  cases q <;> simp only [trStep, h.isDigit, h.isOp, h.eq_iff (x := '(') (by decide), h.eq_iff (x := ')') (by decide)]

theorem stripParens (h : DigitMap m) (t : List Char) : stripParens (t.map m) = (stripParens t).map m := by
  unfold Lips.stripParens
  rw [List.filter_map]
  congr 1
  apply List.filter_congr
  intro c _
  simp [h.eq_iff (x := '(') (by decide), h.eq_iff (x := ')') (by decide)]

theorem getLast? (t : List Char) : (t.map m).getLast? = t.getLast?.map m := by simp

theorem afterDigits (h : DigitMap m) {pre : List Char} (hp : ∀ x ∈ pre, x.isDigit = false) (t : List Char) :
    afterDigits pre (t.map m) = (afterDigits pre t).map (List.map m) := by
  unfold Lips.afterDigits
  rw [h.isPrefixOf hp, ← List.map_drop, h.isDigits]
  split <;> rfl

theorem between (h : DigitMap m) {pre : List Char} (hp : ∀ x ∈ pre, x.isDigit = false) {x : Char} (hx : x.isDigit = false) (t : List Char) :
    between pre x (t.map m) = (between pre x t).map (List.map m) := by
  unfold Lips.between
  rw [h.isPrefixOf hp, ← List.map_drop, List.getLast?_map]
  have : ((t.drop pre.length).getLast?.map m = some x) ↔ (t.drop pre.length).getLast? = some x := by
    cases (t.drop pre.length).getLast? <;> simp [h.eq_iff hx]
  simp only [this]
  split <;> simp

theorem matchTr (h : DigitMap m) (t : List Char) : matchTr (t.map m) = (matchTr t).map (List.map (List.map m)) := by
  unfold Lips.matchTr
  rw [h.between (by decide) (by decide)]
  cases Lips.between "tr(".toList ')' t with
  | none => rfl
  | some u =>
    simp only [Option.map_some, h.trMiddle, h.stripParens, h.splitOn (x := '|') (by decide)]
    split <;> rfl

theorem allDigits (h : DigitMap m) (ls : List (List Char)) : (ls.map (List.map m)).all Lips.isDigits = ls.all Lips.isDigits := by
  simp only [List.all_map, Function.comp_def, h.isDigits]

theorem matchDelta (h : DigitMap m) (t : List Char) : matchDelta (t.map m) = (matchDelta t).map (List.map (List.map m)) := by
  unfold Lips.matchDelta
  rw [h.isPrefixOf (by decide), ← List.map_drop, h.splitOn (x := '|') (by decide), h.allDigits]
  split <;> rfl

theorem matchMi (h : DigitMap m) (t : List Char) : matchMi (t.map m) = matchMi t := by
  rcases t with _ | ⟨a, _ | ⟨b, _ | ⟨c, _ | ⟨d, t⟩⟩⟩⟩ <;>
    simp [Lips.matchMi, h.isDigit, h.eq_iff (x := 'm') (by decide), h.eq_iff (x := 'M') (by decide), h.eq_iff (x := '_') (by decide)]

theorem matchS_eq (t : List Char) : Lips.matchS t =
    if t.head? = some 's' ∨ t.head? = some 'S' then
      (if t[1]? = some '_' then (if Lips.isDigits (t.drop 2) then some (t.drop 2) else none) else if Lips.isDigits (t.drop 1) then some (t.drop 1) else none)
    else none := by
  rcases t with _ | ⟨a, _ | ⟨b, t⟩⟩
  · simp [Lips.matchS]
  · by_cases h1 : a = 's'
    · subst h1; simp [Lips.matchS]
    · by_cases h2 : a = 'S'
      · subst h2; simp [Lips.matchS]
      · simp [Lips.matchS, h1, h2]
  · by_cases h1 : a = 's'
    · subst h1
      by_cases h3 : b = '_'
      · subst h3; simp [Lips.matchS]
      · simp [Lips.matchS, h3]
    · by_cases h2 : a = 'S'
      · subst h2
        by_cases h3 : b = '_'
        · subst h3; simp [Lips.matchS]
        · simp [Lips.matchS, h3]
      · simp [Lips.matchS, h1, h2]

theorem option_eq (h : DigitMap m) {x : Char} (hx : x.isDigit = false) (o : Option Char) : o.map m = some x ↔ o = some x := by
  cases o <;> simp [h.eq_iff hx]

theorem matchS (h : DigitMap m) (t : List Char) : matchS (t.map m) = (matchS t).map (List.map m) := by
  rw [matchS_eq, matchS_eq, List.head?_map, List.getElem?_map, ← List.map_drop, ← List.map_drop, h.isDigits, h.isDigits]
  simp only [h.option_eq (x := 's') (by decide), h.option_eq (x := 'S') (by decide), h.option_eq (x := '_') (by decide)]
  split
  · split <;> split <;> rfl
  · rfl

theorem matchTwo (h : DigitMap m) {os cs : List Char} (ho : ∀ x ∈ os, x.isDigit = false) (hc : ∀ x ∈ cs, x.isDigit = false) (t : List Char) :
    matchTwo os cs (t.map m) = (matchTwo os cs t).map fun q => (q.1.map m, q.2.map m) := by
  rcases t with _ | ⟨o, t⟩
  · rfl
  · simp only [Lips.matchTwo, List.map_cons, List.getLast?_map, ← List.map_dropLast, h.splitOn (x := '|') (by decide)]
    rcases t.getLast? with _ | c
    · rfl
    · rcases t.dropLast.splitOn '|' with _ | ⟨a, _ | ⟨b, _ | ⟨d, l⟩⟩⟩
      · rfl
      · rfl
      · simp only [Option.map_some, List.map_cons, List.map_nil, h.mem_iff ho, h.mem_iff hc, h.isDigits]
        split <;> rfl
      · rfl

theorem matchOne (h : DigitMap m) {os cs : List Char} (ho : ∀ x ∈ os, x.isDigit = false) (hc : ∀ x ∈ cs, x.isDigit = false) (t : List Char) :
    matchOne os cs (t.map m) = (matchOne os cs t).map (List.map m) := by
  rcases t with _ | ⟨o, t⟩
  · rfl
  · simp only [Lips.matchOne, List.map_cons, List.getLast?_map, ← List.map_dropLast]
    rcases t.getLast? with _ | c
    · rfl
    · simp only [Option.map_some, h.mem_iff ho, h.mem_iff hc, h.isDigits]
      split <;> rfl

theorem matchNB (h : DigitMap m) (t : List Char) :
    matchNB (t.map m) = (matchNB t).map fun q => (q.1, q.2.1.map m, q.2.2.1.map (List.map m), q.2.2.2.1.map m, q.2.2.2.2) := by
  have ho : ∀ x ∈ ['<', '⟨', '['], x.isDigit = false := by decide
  have hc : ∀ x ∈ ['⟩', ']', '>'], x.isDigit = false := by decide
  rcases t with _ | ⟨o, t⟩
  · rfl
  · simp only [Lips.matchNB, List.map_cons, List.getLast?_map, ← List.map_dropLast, h.splitOn (x := '|') (by decide)]
    rcases t.getLast? with _ | c
    · rfl
    · rcases t.dropLast.splitOn '|' with _ | ⟨a, l⟩
      · rfl
      · simp only [Option.map_some, List.map_cons, List.getLast?_map]
        rcases l.getLast? with _ | d
        · rfl
        · simp only [Option.map_some, h.mem_iff ho, h.mem_iff hc, h.isDigits, ← List.map_dropLast, ← h.intercalate, h.nbMiddle]
          split
          · rename_i hh
            rw [Option.map_some, h.fix (ho o hh.1), h.fix (hc c hh.2.1)]
          · rfl

theorem matchOpenBegin (h : DigitMap m) (t : List Char) :
    matchOpenBegin (t.map m) = (matchOpenBegin t).map fun q => (q.1.map (List.map m), q.2.1.map m, q.2.2) := by
  have hc : ∀ x ∈ ['⟩', ']'], x.isDigit = false := by decide
  rcases t with _ | ⟨o, t⟩
  · rfl
  · by_cases e : o = '|'
    · subst e
      rw [List.map_cons, h.fix (x := '|') (by decide)]
      simp only [Lips.matchOpenBegin, List.getLast?_map, ← List.map_dropLast, h.splitOn (x := '|') (by decide)]
      rcases t.getLast? with _ | c
      · rfl
      · rcases (t.dropLast.splitOn '|').getLast? with _ | d
        · rfl
        · simp only [Option.map_some, h.mem_iff hc, h.isDigits, ← h.intercalate, h.obMiddle]
          split
          · rename_i hh
            rw [Option.map_some, h.fix (hc c hh.1)]
          · rfl
    · have e' : m o ≠ '|' := fun q => e ((h.eq_iff (by decide) o).1 q)
      simp [Lips.matchOpenBegin, e, e']

theorem matchOpenEnd (h : DigitMap m) (t : List Char) :
    matchOpenEnd (t.map m) = (matchOpenEnd t).map fun q => (q.1, q.2.1.map m, q.2.2.map (List.map m)) := by
  have ho : ∀ x ∈ ['⟨', '['], x.isDigit = false := by decide
  rcases t with _ | ⟨o, t⟩
  · rfl
  · simp only [Lips.matchOpenEnd, List.map_cons, List.getLast?_map, ← List.map_dropLast, h.splitOn (x := '|') (by decide)]
    rcases t.getLast? with _ | c
    · rfl
    · rcases t.dropLast.splitOn '|' with _ | ⟨a, l⟩
      · rfl
      · simp only [Option.map_some, List.map_cons, h.mem_iff ho, h.eq_iff (x := '|') (by decide), h.isDigits, ← h.intercalate, h.obMiddle]
        split
        · rename_i hh
          rw [Option.map_some, h.fix (ho o hh.1)]
        · rfl

theorem matchDoubleOpen (h : DigitMap m) (t : List Char) : matchDoubleOpen (t.map m) = (matchDoubleOpen t).map (List.map (List.map m)) := by
  unfold Lips.matchDoubleOpen
  rw [h.between (by decide) (by decide)]
  cases Lips.between ['|'] '|' t with
  | none => rfl
  | some u =>
    simp only [Option.map_some, h.obMiddle, h.splitOn (x := '|') (by decide)]
    split <;> rfl

theorem letter (h : DigitMap m) (c : Char) : isLetter (m c) = isLetter c := by
  cases hc : c.isDigit
  · rw [h.other c hc]
  · have l : ∀ c : Char, c.isDigit = true → isLetter c = false := by
      intro c hc
      simp only [Char.isDigit, Bool.and_eq_true, decide_eq_true_eq] at hc
      have h2 : c.val ≤ 57 := hc.2
      simp only [isLetter, Char.isAlpha, Char.isUpper, Char.isLower, Bool.or_eq_false_iff, Bool.and_eq_false_iff, decide_eq_false_iff_not]
      refine ⟨fun h3 => absurd (UInt32.le_trans h3.1 h2) (by decide), .inl fun h3 => absurd (UInt32.le_trans h3 h2) (by decide)⟩
    rw [l c hc, l _ (h.digit c hc)]

theorem isMassName (h : DigitMap m) (t : List Char) : isMassName (t.map m) = isMassName t := by
  have key : ∀ r : List Char, ((r.map m).dropWhile isLetter).all Char.isDigit = (r.dropWhile isLetter).all Char.isDigit := by
    intro r
    induction r with
    | nil => rfl
    | cons c r ih =>
      rw [List.map_cons, List.dropWhile_cons, List.dropWhile_cons, h.letter]
      split
      · exact ih
      · simp [List.all_map, Function.comp_def, h.isDigit]
  rcases t with _ | ⟨c, _ | ⟨d, r⟩⟩
  · rfl
  · simp [Lips.isMassName, h.eq_iff (x := 'm') (by decide), h.eq_iff (x := 'M') (by decide), h.eq_iff (x := 'μ') (by decide)]
  · by_cases e : d = '_'
    · subst e
      simp only [Lips.isMassName, List.map_cons, h.fix (x := '_') (by decide), key, h.eq_iff (x := 'm') (by decide), h.eq_iff (x := 'M') (by decide),
        h.eq_iff (x := 'μ') (by decide)]
    · have e' : m d ≠ '_' := fun q => e ((h.eq_iff (by decide) d).1 q)
      have k := key (d :: r)
      rw [List.map_cons] at k
      simp only [Lips.isMassName, List.map_cons, h.eq_iff (x := 'm') (by decide), h.eq_iff (x := 'M') (by decide), h.eq_iff (x := 'μ') (by decide)]
      congr 1
      split
      · rename_i r' hr; exact absurd (List.cons.inj hr).1 e'
      · split
        · rename_i r' hr; exact absurd (List.cons.inj hr).1 e
        · exact k

end DigitMap

/-- A form with the characters of its labels replaced. -/
def Form.mapLabels (m : Char → Char) : Form → Form
  | .tr5 t => .tr5 (t.map m)
  | .tr es => .tr (es.map (List.map m))
  | .omega ds => .omega (ds.map m)
  | .pi ds => .pi (ds.map m)
  | .delta cs => .delta (cs.map (List.map m))
  | .d5 => .d5
  | .massOf t => .massOf (t.map m)
  | .mandelstam ds => .mandelstam (ds.map m)
  | .angle a b => .angle (a.map m) (b.map m)
  | .Au a => .Au (a.map m)
  | .Ad a => .Ad (a.map m)
  | .square a b => .square (a.map m) (b.map m)
  | .Su a => .Su (a.map m)
  | .Sd a => .Sd (a.map m)
  | .string o a ms d c => .string o (a.map m) (ms.map (List.map m)) (d.map m) c
  | .openBegin ms d c => .openBegin (ms.map (List.map m)) (d.map m) c
  | .openEnd o a ms => .openEnd o (a.map m) (ms.map (List.map m))
  | .doubleOpen ms => .doubleOpen (ms.map (List.map m))
  | .internalMass t => .internalMass (t.map m)
  | .expression => .expression

theorem DigitMap.classifyBracket {m : Char → Char} (h : DigitMap m) (t : List Char) : classifyBracket (t.map m) = (classifyBracket t).mapLabels m := by
  unfold Lips.classifyBracket
  rw [h.matchTwo (by decide) (by decide), h.matchOne (by decide) (by decide), h.matchOne (by decide) (by decide), h.matchTwo (by decide) (by decide),
    h.matchOne (by decide) (by decide), h.matchOne (by decide) (by decide), h.matchNB, h.matchOpenBegin, h.matchOpenEnd, h.matchDoubleOpen, h.isMassName]
  rcases Lips.matchTwo ['⟨', '<'] ['⟩', '>'] t with _ | ⟨a, b⟩
  swap; · rfl
  rcases Lips.matchOne ['⟨', '<'] ['|'] t with _ | a
  swap; · rfl
  rcases Lips.matchOne ['|'] ['⟩', '>'] t with _ | a
  swap; · rfl
  rcases Lips.matchTwo ['['] [']'] t with _ | ⟨a, b⟩
  swap; · rfl
  rcases Lips.matchOne ['|'] [']'] t with _ | a
  swap; · rfl
  rcases Lips.matchOne ['['] ['|'] t with _ | a
  swap; · rfl
  rcases Lips.matchNB t with _ | ⟨o, a, ms, d, c⟩
  swap; · rfl
  rcases Lips.matchOpenBegin t with _ | ⟨ms, d, c⟩
  swap; · rfl
  rcases Lips.matchOpenEnd t with _ | ⟨o, a, ms⟩
  swap; · rfl
  rcases Lips.matchDoubleOpen t with _ | ms
  swap; · rfl
  simp only [Option.map_none]
  split <;> rfl

/-- No `tr` followed by a digit. -/
def NoTrDigit (t : List Char) : Prop := ¬ ("tr".toList.isPrefixOf t = true ∧ ∃ c, t[2]? = some c ∧ c.isDigit = true)

theorem matchTr5_none {t : List Char} (ht : NoTrDigit t) : matchTr5 t = none := by
  have key : ∀ x : Char, ("tr5".toList ++ [x]).isPrefixOf t = false := by
    intro x
    rw [Bool.eq_false_iff]
    intro hp
    obtain ⟨r, rfl⟩ := List.isPrefixOf_iff_prefix.1 hp
    exact ht ⟨by simp [List.isPrefixOf], '5', by simp, by decide⟩
  have k1 : "tr5_".toList.isPrefixOf t = false := key '_'
  have k2 : "tr5(".toList.isPrefixOf t = false := key '('
  unfold matchTr5 afterDigits between
  rw [k1, k2]
  simp

theorem DigitMap.noTrDigit {m : Char → Char} (h : DigitMap m) {t : List Char} (ht : NoTrDigit t) : NoTrDigit (t.map m) := by
  rintro ⟨h1, c, h2, h3⟩
  rw [h.isPrefixOf (by decide)] at h1
  rw [List.getElem?_map, Option.map_eq_some_iff] at h2
  obtain ⟨d, hd, rfl⟩ := h2
  exact ht ⟨h1, d, hd, by rwa [h.isDigit] at h3⟩

theorem DigitMap.classify {m : Char → Char} (h : DigitMap m) {t : List Char} (ht : NoTrDigit t) (hd : t.head? ≠ some 'δ') :
    classify (t.map m) = (classify t).mapLabels m := by
  have hd' : t ≠ "δ5".toList := fun e => hd (by rw [e]; rfl)
  have hd'' : t.map m ≠ "δ5".toList := by
    intro e
    apply hd
    have : (t.map m).head? = some 'δ' := by rw [e]; rfl
    rw [List.head?_map] at this
    exact (h.option_eq (by decide) _).1 this
  unfold Lips.classify
  rw [matchTr5_none ht, matchTr5_none (h.noTrDigit ht), h.matchTr, h.afterDigits (by decide), h.afterDigits (by decide), h.matchDelta, if_neg hd', if_neg hd'',
    h.matchMi, h.matchS, h.classifyBracket]
  rcases Lips.matchTr t with _ | es
  swap; · rfl
  rcases Lips.afterDigits "Ω_".toList t with _ | es
  swap; · rfl
  rcases Lips.afterDigits "Π_".toList t with _ | es
  swap; · rfl
  rcases Lips.matchDelta t with _ | es
  swap; · rfl
  simp only [Option.map_none]
  split
  · rfl
  · rcases Lips.matchS t with _ | es <;> rfl

end Lips
