import Verif.Model.SetText

/-!
What the setters of single invariants leave behind, lips/hardcoded_limits/particles_set.py and `fix_mom_cons`,
lips/particles.py:282-300: the particles after a call, whether it returns or raises. The methods assign to the
particles one after the other and nothing is undone, so that after an exception the assignments made before it
stay. Each function here follows the one in Model/Set, Model/SetPoly, Model/SetTr5 or Model/SetText with the
same name after `set`, and differs from it in what it gives where that one gives an exception.
-/

namespace Lips

open Matrix

variable {K : Type*} [Field K] {n : ℕ}

/-- After an assignment to one particle; the setters of Model/Particle record what an exception leaves. -/
def storeLeft (ps : Point K n) (k : Fin n) (o : Out K) : Point K n := Function.update ps k o.st

open Classical in
/-- After `fix_mom_cons`, `axis == 1` branch, particles.py:294-297. -/
noncomputable def fixAxis1Left (c : Ctx K) (ps : Point K n) (a b : Fin n) : Point K n :=
  let k := othersR2 ps a b
  match (ps b).l_d, square (ps a) (ps b) with
  | some lb, .ok d =>
    if d = 0 then ps
    else
      let o := setRu c (ps a) (fun j => vecMul lb k j / d)
      let ps₁ := storeLeft ps a o
      match o.err, (ps₁ a).l_d, square (ps₁ a) (ps₁ b) with
      | none, some la, .ok d₁ =>
        if d₁ = 0 then ps₁ else storeLeft ps₁ b (setRu c (ps₁ b) (fun j => -(vecMul la k j) / d₁))
      | _, _, _ => ps₁
  | _, _ => ps

open Classical in
/-- After `fix_mom_cons`, other axes, particles.py:294, 298-300. -/
noncomputable def fixAxis2Left (c : Ctx K) (ps : Point K n) (a b : Fin n) : Point K n :=
  let k := othersR2 ps a b
  match (ps b).r_d, angle (ps a) (ps b) with
  | some rb, .ok d =>
    if d = 0 then ps
    else
      let o := setLu c (ps a) (fun j => -(k.mulVec rb j) / d)
      let ps₁ := storeLeft ps a o
      match o.err, (ps₁ a).r_d, angle (ps₁ a) (ps₁ b) with
      | none, some ra, .ok d₁ =>
        if d₁ = 0 then ps₁ else storeLeft ps₁ b (setLu c (ps₁ b) (fun j => k.mulVec ra j / d₁))
      | _, _, _ => ps₁
  | _, _ => ps

/-- After `fix_mom_cons(A, B, axis=axis)`, particles.py:282-300, without `real_momenta`. -/
noncomputable def fixMomConsLeft (c : Ctx K) (ps : Point K n) (A B axis : ℕ) (draw : ℕ × ℕ) : Point K n :=
  let go (A B : ℕ) : Point K n :=
    if A ≠ 0 ∧ B ≠ 0 then
      match label n A, label n B with
      | .ok a, .ok b => if axis = 1 then fixAxis1Left c ps a b else fixAxis2Left c ps a b
      | _, _ => ps
    else ps
  if A = 0 ∧ B = 0 then go draw.1 draw.2 else go A B

/-- After `fix_mom_cons(plist[0], plist[1], axis=...)`. -/
noncomputable def fixFirstTwoLeft (c : Ctx K) (ps : Point K n) (plist : List (Fin n)) (axis2 : Bool) : Point K n :=
  match plist with
  | p :: q :: _ => if axis2 then fixAxis2Left c ps p q else fixAxis1Left c ps p q
  | _ => ps

/-- After an assignment to particle `k` and then, if asked for, momentum fixing. -/
noncomputable def storeFixLeft (c : Ctx K) (fix axis2 : Bool) (plist : List (Fin n)) (ps : Point K n) (k : Fin n) (o : Out K) :
    Point K n :=
  match o.err with
  | some _ => storeLeft ps k o
  | none => if fix then fixFirstTwoLeft c (storeLeft ps k o) plist axis2 else storeLeft ps k o

/-- After `_set_A2`, particles_set.py:79-91. -/
noncomputable def leftA2 (c : Ctx K) (ps : Point K n) (A B : Fin n) (X : K) (fix : Bool) : Point K n :=
  match need (ps A).r_u, need (ps B).r_d with
  | .ok u, .ok w =>
    match pyDiv (X - u 1 * w 1) (u 0) with
    | .error _ => ps
    | .ok x => storeFixLeft c fix true (freeLabels [A, B]) ps B (setRd c (ps B) ![x, w 1])
  | _, _ => ps

/-- After `_set_S2`, particles_set.py:95-107. -/
noncomputable def leftS2 (c : Ctx K) (ps : Point K n) (A B : Fin n) (X : K) (fix : Bool) : Point K n :=
  match need (ps A).l_d, need (ps B).l_u with
  | .ok u, .ok w =>
    match pyDiv (X - u 1 * w 1) (u 0) with
    | .error _ => ps
    | .ok x => storeFixLeft c fix false (freeLabels [A, B]) ps B (setLu c (ps B) ![x, w 1])
  | _, _ => ps

/-- After setting the head, particles_set.py:188-222. -/
noncomputable def leftHead (c : Ctx K) (ps : Point K n) (t : Str n) (X : K) : Point K n :=
  if t.first ≠ '⟨' ∧ t.first ≠ '[' then ps
  else
    let M := chain ps (t.first = '⟨') (t.ms.map plusOf)
    if t.s = t.e ∧ t.ms.length % 2 = 0 then
      if t.first = '⟨' then
        match need (ps t.s).r_d with
        | .error _ => ps
        | .ok r =>
          let B := r 1
          match c.sqrt ((B * M 0 0 - B * M 1 1) * (B * M 0 0 - B * M 1 1) + 4 * M 1 0 * (B * B * M 0 1 - X)) with
          | none => ps
          | some q =>
            match pyDiv (B * M 0 0 - B * M 1 1 + q) (2 * M 1 0) with
            | .error _ => ps
            | .ok A => storeLeft ps t.s (setRd c (ps t.s) ![A, B])
      else
        match need (ps t.s).l_d with
        | .error _ => ps
        | .ok l =>
          let B := l 1
          match c.sqrt ((B * M 0 0 - B * M 1 1) * (B * M 0 0 - B * M 1 1) + 4 * M 0 1 * (B * B * M 1 0 - X)) with
          | none => ps
          | some q =>
            match pyDiv (B * M 0 0 - B * M 1 1 + q) (2 * M 0 1) with
            | .error _ => ps
            | .ok A => storeLeft ps t.s (setLd c (ps t.s) ![A, B])
    else
      match (if t.last = '⟩' then need (ps t.e).r_d else need (ps t.e).l_u) with
      | .error _ => ps
      | .ok w =>
        let v := M.mulVec w
        if t.first = '⟨' then
          match need (ps t.s).r_u with
          | .error _ => ps
          | .ok u =>
            match pyDiv (X - u 1 * v 1) (v 0) with
            | .error _ => ps
            | .ok x => storeLeft ps t.s (setRu c (ps t.s) ![x, u 1])
        else
          match need (ps t.s).l_d with
          | .error _ => ps
          | .ok u =>
            match pyDiv (X - u 1 * v 1) (v 0) with
            | .error _ => ps
            | .ok x => storeLeft ps t.s (setLd c (ps t.s) ![x, u 1])

/-- After setting through a unique label, particles_set.py:224-265. -/
noncomputable def leftMiddle (c : Ctx K) (ps : Point K n) (t : Str n) (i j : ℕ) (X : K) : Point K n :=
  let u := t.toFirst i j
  match u.ms with
  | (b :: _) :: rest =>
    match u.value ps, ({ u with ms := [b] :: rest } : Str n).value ps, endOfPart ps t.first b rest u.e u.last with
    | .ok total, .ok part, .ok tail =>
      match pyDiv (X - (total - part)) tail with
      | .error _ => ps
      | .ok target =>
        if t.first = '⟨' then leftA2 c ps u.s b target false
        else if t.first = '[' then leftS2 c ps u.s b target false
        else ps
    | _, _, _ => ps
  | _ => ps

/-- After fixing momentum at the end of `_set_NB`, particles_set.py:267-287. -/
noncomputable def fixNBLeft (c : Ctx K) (ps : Point K n) (t : Str n) (a : Fin n) (first : Char) : Point K n :=
  let plist := freeLabels t.labels
  if 2 ≤ plist.length then fixFirstTwoLeft c ps plist false
  else fixFirstTwoLeft c ps (plist ++ [a]) (decide (first ≠ '['))

/-- After `_set_NB`, particles_set.py:111-287. -/
noncomputable def leftNB (c : Ctx K) : ℕ → Point K n → Str n → K → Bool → ℕ → Point K n
  | 0, ps, _, _, _, _ => ps
  | fuel + 1, ps, t₀, X₀, fix, mode =>
    let flipped := if (freeLabels t₀.labels).length < 2 ∧ fix = true then t₀.findFlip else none
    let t := flipped.getD t₀
    let X := if flipped.isSome then -X₀ else X₀
    let headCase := ((t.uniqueEnd.isSome = true ∨ (t.s = t.e ∧ t.s ∉ t.ms.flatten ∧ t.ms.length % 2 = 0)) ∧ mode = 1) ∨
      t.uniqueMiddle = none
    if headCase then
      if t.uniqueEnd = some true then leftNB c fuel ps t.reverse X fix mode
      else
        match setHead c ps t X with
        | .error _ => leftHead c ps t X
        | .ok ps' => if fix then fixNBLeft c ps' t t.s t.first else ps'
    else
      match t.uniqueMiddle with
      | none => ps
      | some (i, j) =>
        match setMiddle c ps t i j X with
        | .error _ => leftMiddle c ps t i j X
        | .ok ps' => if fix then fixNBLeft c ps' t (t.toFirst i j).s (t.toFirst i j).first else ps'

/-- After `_set_Sijk`, particles_set.py:291-311. -/
noncomputable def leftS (c : Ctx K) (ps : Point K n) (ls : List (Fin n)) (X : K) (fix : Bool) (mode : ℕ) : Point K n :=
  match ls with
  | [_, _] => ps
  | i :: rest =>
    if mode ≠ 1 ∧ mode ≠ 2 then ps
    else
      let t : Str n := if mode = 1 then ⟨'⟨', i, [rest], i, ']'⟩ else ⟨'[', i, [rest], i, '⟩'⟩
      match t.value ps with
      | .error _ => ps
      | .ok v => leftNB c 3 ps t (X - (computeS ps ls - v)) fix 1
  | [] => ps

/-- After `_set_Dijk`, particles_set.py:315-351. `self.cluster` makes new particles. -/
noncomputable def leftD (c : Ctx K) (ps : Point K n) (A B C : List (Fin n)) (X : K) (fix : Bool) (mode : ℕ) : Point K n :=
  match A[(mode - 1) / 2]? with
  | none => ps
  | some k =>
    match clusterLeg c ps (A.eraseIdx ((mode - 1) / 2)), clusterLeg c ps B, clusterLeg c ps C with
    | some Q1, some Q2, some _ =>
      match need (ps k).r_u, need (ps k).l_u with
      | .ok ru, .ok lu =>
        let b := if mode % 2 = 1 then ru 1 else lu 1
        let v := if mode % 2 = 1 then Q2.r2b.mulVec lu else vecMul ru Q2.r2b
        let w := if mode % 2 = 1 then Q1.r2b.mulVec lu else vecMul ru Q1.r2b
        let al := v 0
        let be := v 1
        let ga := w 0
        let de := w 1
        let QA := al ^ 2 / 4
        let QB := al * b * be / 2 + al * ldot Q1 Q2 - ga * ldot Q2 Q2
        let QC := b ^ 2 * be ^ 2 / 4 + b * be * ldot Q1 Q2 - b * de * ldot Q2 Q2 + ldot Q1 Q2 ^ 2 -
          ldot Q1 Q1 * ldot Q2 Q2 - X
        match c.sqrt (QB ^ 2 - 4 * QA * QC) with
        | none => ps
        | some q =>
          match pyDiv (-QB + q) (2 * QA) with
          | .error _ => ps
          | .ok x =>
            storeFixLeft c fix false C.reverse ps k
              (if mode % 2 = 1 then setRu c (ps k) ![x, b] else setLu c (ps k) ![x, b])
      | _, _ => ps
    | _, _, _ => ps

/-- After `_set_Oijk`, particles_set.py:355-430. -/
noncomputable def leftO (cx : Ctx K) (ps : Point K n) (nol0 nol1 nol2 : List (Fin n)) (X : K) : Point K n :=
  match nol2, nol0, nol1 with
  | A :: B :: _, C :: D :: _, E :: F :: _ =>
    match spinorsOf ps A, spinorsOf ps B, spinorsOf ps C, spinorsOf ps D with
    | .ok (rA, lA), .ok (rB, lB), .ok (rC, lC), .ok (rD, lD) =>
      let QA := omegaQA (lA 0) (lA 1) (rB 1) (lB 0) (lB 1) (rC 1) (lC 0) (lC 1) (rD 1) (lD 0) (lD 1)
      let QB := omegaQB (rA 1) (lA 0) (lA 1) (rB 0) (rB 1) (lB 0) (lB 1) (rC 0) (rC 1) (lC 0) (lC 1) (rD 0) (rD 1) (lD 0) (lD 1)
      let QC := omegaQC (rA 1) (lA 0) (lA 1) (rB 0) (rB 1) (lB 0) (lB 1) (rC 0) (rC 1) (lC 0) (lC 1) (rD 0) (rD 1) (lD 0) (lD 1) X
      match cx.sqrt (QB ^ 2 - 4 * QA * QC) with
      | none => ps
      | some q =>
        match pyDiv (-QB - q) (2 * QA) with
        | .error _ => ps
        | .ok a => storeFixLeft cx true false [E, F] ps A (setRd cx (ps A) ![a, rA 1])
    | _, _, _, _ => ps
  | _, _, _ => ps

/-- After `_set_Pijk`, particles_set.py:434-458. -/
noncomputable def leftP (cx : Ctx K) (ps : Point K n) (nol0 nol1 nol2 : List (Fin n)) (X : K) : Point K n :=
  match nol2, nol0, nol1 with
  | A :: B :: _, C :: D :: _, E :: F :: _ =>
    match spinorsOf ps A, spinorsOf ps B, spinorsOf ps C, spinorsOf ps D with
    | .ok (rA, lA), .ok (rB, lB), .ok (rC, lC), .ok (rD, lD) =>
      match pyDiv (piNum (rA 1) (lA 0) (lA 1) (rB 0) (rB 1) (lB 0) (lB 1) (rC 0) (rC 1) (lC 0) (lC 1) (rD 0) (rD 1) (lD 0) (lD 1) X)
          (piDen (lA 0) (lA 1) (rC 1) (lC 0) (lC 1) (rD 1) (lD 0) (lD 1)) with
      | .error _ => ps
      | .ok a => storeFixLeft cx true false [E, F] ps A (setRd cx (ps A) ![a, rA 1])
    | _, _, _, _ => ps
  | _, _, _ => ps

/-- After `_set_tr5` for at least six particles, particles_set.py:462-473 and 510-518. -/
noncomputable def leftTr5 (c : Ctx K) (ps : Point K n) (a b d e : Slot n) (X : K) (fix : Bool) : Point K n :=
  match tr5Rotate 4 (a, b, d, e) with
  | some ((true, k) :: _, b, d, e) =>
    match computeOpenEnd ps '[' k [b, d, e], computeOpenEnd ps '[' k [e, d, b], need (ps k).r_d with
    | .ok x, .ok y, .ok r =>
      match pyDiv (X - (x 1 - y 1) * r 1) (x 0 - y 0) with
      | .error _ => ps
      | .ok v => storeFixLeft c fix false (freeLabels (k :: ((b ++ d ++ e).map Prod.snd))) ps k (setRd c (ps k) ![v, r 1])
    | _, _, _ => ps
  | _ => ps

/-- After the assignments of particles_set.py:499-508 to one particle. -/
def storeBothLeft (c : Ctx K) (ps : Point K n) (k : Fin n) (r l : V2 K) : Point K n :=
  let o := setRd c (ps k) r
  let ps' := storeLeft ps k o
  match o.err with
  | some _ => ps'
  | none => storeLeft ps' k (setLd c (ps' k) l)

/-- After the five-point branch of `_set_tr5`, particles_set.py:475-508. -/
noncomputable def leftTr5Five (c : Ctx K) (ps : Point K 5) (X : K) : Point K 5 :=
  match fiveSpinors ps with
  | .error _ => ps
  | .ok (r, l) =>
    match tr5Solve r l X with
    | .error _ => ps
    | .ok (r1, r5, l5) =>
      match storeBoth c ps 0 r1 (l 0) with
      | .error _ => storeBothLeft c ps 0 r1 (l 0)
      | .ok ps =>
        match storeBoth c ps 1 (r 1) (l 1) with
        | .error _ => storeBothLeft c ps 1 (r 1) (l 1)
        | .ok ps =>
          match storeBoth c ps 2 (r 2) (l 2) with
          | .error _ => storeBothLeft c ps 2 (r 2) (l 2)
          | .ok ps =>
            match storeBoth c ps 3 (r 3) (l 3) with
            | .error _ => storeBothLeft c ps 3 (r 3) (l 3)
            | .ok ps => storeBothLeft c ps 4 r5 l5

/-- After `_set_tr5`, particles_set.py:462-518. -/
noncomputable def leftTr5All (c : Ctx K) : {n : ℕ} → Point K n → Slot n → Slot n → Slot n → Slot n → K → Bool → Point K n
  | 5, ps, s₁, s₂, s₃, s₄, X, _ =>
    match tr5Rotate 4 (s₁, s₂, s₃, s₄) with
    | some _ => leftTr5Five c ps X
    | none => ps
  | _ + 6, ps, s₁, s₂, s₃, s₄, X, fix => leftTr5 c ps s₁ s₂ s₃ s₄ X fix
  | _, ps, _, _, _, _, _, _ => ps

/-- After `_set_p5Bdiff`, particles_set.py:522-535. -/
noncomputable def left5B (c : Ctx K) (ps : Point K n) (a b x y e f : Fin n) (X : K) (fix : Bool) : Point K n :=
  match computeNB ps '⟨' a [plusOf [b], plusOf [x, y]] e '⟩', need (ps a).l_d,
      computeNB ps '⟨' b [plusOf [f], plusOf [x, y]] e '⟩', need (ps b).l_d, need (ps e).l_u with
  | .ok p, .ok la, .ok q, .ok lb, .ok w =>
    match pyDiv (-X - (p * la 1 - q * lb 1) * w 1) (p * la 0 - q * lb 0) with
    | .error _ => ps
    | .ok v => storeFixLeft c fix false [x, y] ps e (setLu c (ps e) ![v, w 1])
  | _, _, _, _, _ => ps

/-! ### Texts -/

/-- After `_set_NB` on text, particles_set.py:111-115. -/
noncomputable def leftNBText (c : Ctx K) (ps : Point K n) (t : List Char) (first last : Char) (X : K) (fix : Bool)
    (mode : ℕ) : Option (Point K n) :=
  match getLNB t with
  | .error _ => some ps
  | .ok (s, ms, e) =>
    if first = '<' ∨ last = '>' then none
    else
      match label n s, ms.mapM (fun m => m.mapM (label n)), label n e with
      | .ok s, .ok ms, .ok e =>
        if nbModelled (Str.labels ⟨first, s, ms, e, last⟩) then
          some (leftNB c (n + 3) ps ⟨first, s, ms, e, last⟩ X fix mode) else none
      | _, _, _ => none

/-- After `_set_Sijk` on text, particles_set.py:291-296. -/
noncomputable def leftSText (c : Ctx K) (ps : Point K n) (ds : List Char) (X : K) (fix : Bool) (mode : ℕ) : Option (Point K n) :=
  if ds.length = 2 then some ps
  else
    match readDigits n ds with
    | .error _ => some ps
    | .ok ls => if ls.length ≤ 1 ∨ ¬nbModelled ls then none else some (leftS c ps ls X fix mode)

/-- After `_set_Dijk` on text, particles_set.py:317-323. -/
noncomputable def leftDText (c : Ctx K) (ps : Point K n) (fuel : ℕ) (corners : List (List Char)) (X : K) (fix : Bool)
    (mode : ℕ) : Option (Point K n) :=
  if mode = 0 then none
  else
    match corners with
    | [ds] =>
      match shortCorners n fuel ds with
      | none => none
      | some (.error _) => some ps
      | some (.ok (A, B, C)) => some (leftD c ps A B C X fix mode)
    | [a, b, d] =>
      match readDigits n a, readDigits n b, readDigits n d with
      | .ok A, .ok B, .ok C => some (leftD c ps A B C X fix mode)
      | _, _, _ => some ps
    | _ => none

/-- After `_set_tr5` on text, particles_set.py:464-473. -/
noncomputable def leftTr5Text (c : Ctx K) (ps : Point K n) (m : List Char) (X : K) (fix : Bool) : Option (Point K n) :=
  match unpack4 m with
  | .error _ => some ps
  | .ok (w, x, y, z) =>
    match readSlot n w, readSlot n x, readSlot n y, readSlot n z with
    | .ok w, .ok x, .ok y, .ok z => some (leftTr5All c ps w x y z X fix)
    | _, _, _, _ => none

/-- After `_set_p5Bdiff` on text, particles_set.py:522-525. -/
noncomputable def left5BText (c : Ctx K) (ps : Point K n) (a b cd e f : List Char) (X : K) (fix : Bool) : Option (Point K n) :=
  match (cd.splitOn '+').mapM pyInt with
  | .ok [x, y] =>
    match readLabel n a, readLabel n b, label n x, label n y, readLabel n e, readLabel n f with
    | .ok a, .ok b, .ok x, .ok y, .ok e, .ok f => some (left5B c ps a b x y e f X fix)
    | _, _, _, _, _, _ => some ps
  | _ => some ps

/-- After setting what the text was taken for, particles_set.py:41-75. -/
noncomputable def leftForm (c : Ctx K) (ps : Point K n) (fuel : ℕ) (t : List Char) (X : K) (fix : Bool) (mode : ℕ) :
    SetForm → Option (Point K n)
  | .angle a b => some (match readLabel n a, readLabel n b with
    | .ok a, .ok b => leftA2 c ps a b X fix
    | _, _ => ps)
  | .square a b => some (match readLabel n a, readLabel n b with
    | .ok a, .ok b => leftS2 c ps a b X fix
    | _, _ => ps)
  | .string o _ _ _ d => leftNBText c ps t o d X fix mode
  | .mandelstam ds => leftSText c ps ds X fix mode
  | .delta corners => leftDText c ps fuel corners X fix mode
  | .omega ds => (shortCorners n fuel ds).map fun r => match r with
    | .ok (A, B, C) => leftO c ps A B C X
    | .error _ => ps
  | .pi ds => (shortCorners n fuel ds).map fun r => match r with
    | .ok (A, B, C) => leftP c ps A B C X
    | .error _ => ps
  | .tr5 m => leftTr5Text c ps m X fix
  | .diff a b cd e f => left5BText c ps a b cd e f X fix
  | .nothing => some ps

/-- After `_set_inner`, particles_set.py:37-75, and after `_set`, particles_set.py:23-35, whose checks change
nothing. -/
noncomputable def leftText (c : Ctx K) (ps : Point K n) (fuel : ℕ) (t : List Char) (X : K) (fix : Bool) (mode : ℕ) :
    Option (Point K n) :=
  if plainChars t then
    match checkConsistency t with
    | .error _ => some ps
    | .ok () => leftForm c ps fuel t X fix mode (setClassify t)
  else none

end Lips
