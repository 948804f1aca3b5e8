import Verif.Model.Ideal
import Verif.Props.Components
import Verif.Props.Slices
import Mathlib.RingTheory.AlgebraicIndependent.Defs

/-! Helper lemmas on the polynomials of `LipsIdeal`: the covariants over an arbitrary ring. -/

namespace Lips

open Matrix MvPolynomial

section ring
variable {R S : Type*} [CommRing R] [CommRing S] {n : ℕ}

/-- The bar matrix or the other one. -/
def rMat (r l : Fin n → V2 R) (bar : Bool) (k : Fin n) : M2 R :=
  if bar then !![r k 0 * l k 0, r k 0 * l k 1; r k 1 * l k 0, r k 1 * l k 1]
  else !![l k 1 * r k 1, -(l k 1 * r k 0); -(l k 0 * r k 1), l k 0 * r k 0]

def rSlot (r l : Fin n → V2 R) (bar : Bool) (s : Slot n) : M2 R :=
  (s.map fun t => if t.1 then rMat r l bar t.2 else -rMat r l bar t.2).sum

def rChain (r l : Fin n → V2 R) : Bool → List (Slot n) → M2 R
  | _, [] => 1
  | b, s :: ss => rSlot r l b s * rChain r l (!b) ss

def rSum (r l : Fin n → V2 R) (bar : Bool) (ls : List (Fin n)) : M2 R := (ls.map (rMat r l bar)).sum

def rLeft (r l : Fin n → V2 R) (first : Char) (a : Fin n) : V2 R := if first = '⟨' then ![r a 1, -r a 0] else l a

def rRight (r l : Fin n → V2 R) (last : Char) (d : Fin n) : V2 R := if last = '⟩' then r d else ![l d 1, -l d 0]

def rNB (r l : Fin n → V2 R) (first : Char) (a : Fin n) (mid : List (Slot n)) (d : Fin n) (last : Char) : Except Err R :=
  if nbSyntaxError mid.length first last then .error .syntaxError
  else .ok (vecMul (rLeft r l first a) (rChain r l (first = '⟨') mid) ⬝ᵥ rRight r l last d)

def rS (r l : Fin n → V2 R) (ls : List (Fin n)) : R := (rSum r l false ls).det

def rTr5 (r l : Fin n → V2 R) (a b c d : Slot n) : Except Err R :=
  match tr5Rotate 4 (a, b, c, d) with
  | some ((true, k) :: _, b, c, d) => both (· - ·) (rNB r l '[' k [b, c, d] k '⟩') (rNB r l '⟨' k [b, c, d] k ']')
  | _ => .error .notImplemented

def rOmega (r l : Fin n → V2 R) (a b c : List (Fin n)) : Except Err R :=
  match a with
  | a0 :: _ => .ok (2 * rS r l c * rS r l b - (rS r l c + rS r l b - rS r l a) * rS r l (c ++ [a0]))
  | [] => .error .indexError

def rPi (r l : Fin n → V2 R) (a c : List (Fin n)) : Except Err R :=
  match a with
  | a0 :: a1 :: _ => .ok (rS r l (c ++ [a0]) - rS r l (c ++ [a1]))
  | _ => .error .indexError

def rD5 (s12 s23 s34 s45 s51 : R) : R :=
  2 * s12 * s23 * s34 * s45 + 2 * s12 * s23 * s34 * s51 + 2 * s12 * s23 * s45 * s51 -
  2 * s12 * s23 * s23 * s34 + 2 * s12 * s34 * s45 * s51 - 2 * s12 * s45 * s51 * s51 -
  2 * s12 * s12 * s23 * s51 + 1 * s12 * s12 * s23 * s23 + 1 * s12 * s12 * s51 * s51 +
  2 * s23 * s34 * s45 * s51 - 2 * s23 * s34 * s34 * s45 + 1 * s23 * s23 * s34 * s34 -
  2 * s34 * s45 * s45 * s51 + 1 * s34 * s34 * s45 * s45 + 1 * s45 * s45 * s51 * s51

/-- A number over any ring. -/
def Scal.over (r l : Fin n → V2 R) : Scal n → Except Err R
  | .int z => .ok z
  | .two ang a b => .ok (if ang then r a 1 * r b 0 - r a 0 * r b 1 else l a 0 * l b 1 - l a 1 * l b 0)
  | .string first a mid d last => rNB r l first a mid d last
  | .tr mid => .ok (trace (rChain r l true mid))
  | .tr5 a b c d => rTr5 r l a b c d
  | .mandel ls => .ok (rS r l ls)
  | .omega A B C => rOmega r l A B C
  | .pi A C => rPi r l A C
  | .d5 l1 l2 l3 l4 l5 => .ok (rD5 (rS r l [l1, l2]) (rS r l [l2, l3]) (rS r l [l3, l4]) (rS r l [l4, l5]) (rS r l [l5, l1]))
  | .add s t => both (· + ·) (s.over r l) (t.over r l)
  | .mul s t => both (· * ·) (s.over r l) (t.over r l)
  | .neg s => (s.over r l).map (- ·)

/-- Four times the entries of a covariant, over any ring. -/
def Cov.over4 (r l : Fin n → V2 R) : Cov n → Except Err (List R)
  | .scal s => (s.over r l).map fun v => [4 * v]
  | .openBegin mid d last =>
    let v := (rChain r l (decide ((last = '⟩' ∧ mid.length % 2 = 0) ∨ (last = ']' ∧ mid.length % 2 = 1))) mid).mulVec (rRight r l last d)
    .ok [4 * v 0, 4 * v 1]
  | .openEnd first a mid =>
    let v := vecMul (rLeft r l first a) (rChain r l (first = '⟨') mid)
    .ok [4 * v 0, 4 * v 1]
  | .doubleOpen mid =>
    let M := rChain r l true mid
    .ok [4 * M 0 0, 4 * M 0 1, 4 * M 1 0, 4 * M 1 1]
  | .delta A B _ =>
    let t := fun X Y => trace (rSum r l false X * rSum r l true Y)
    .ok [-(t A A * t B B - t A B * t B A)]

def rMom (r l : Fin n → V2 R) : List R :=
  let M := ∑ k, rMat r l false k
  [M 0 0, M 0 1, M 1 0, M 1 1]

/-! ### Under a map of rings -/

/-- The image of a spinor. -/
def mapV (f : R →+* S) (r : Fin n → V2 R) : Fin n → V2 S := fun k j => f (r k j)

variable (f : R →+* S) (r l : Fin n → V2 R)

theorem rMat_map (b : Bool) (k : Fin n) : rMat (mapV f r) (mapV f l) b k = f.mapMatrix (rMat r l b k) := by
  cases b <;> (ext i j; fin_cases i <;> fin_cases j <;> simp [rMat, mapV])

theorem rSlot_map (b : Bool) (s : Slot n) : rSlot (mapV f r) (mapV f l) b s = f.mapMatrix (rSlot r l b s) := by
  induction s with
  | nil => simp [rSlot]
  | cons t s ih =>
    simp only [rSlot, List.map_cons, List.sum_cons, map_add] at ih ⊢
    rw [ih, rMat_map]
    congr 1
    split
    · rfl
    · exact (map_neg f.mapMatrix _).symm

theorem trace_map' (A : M2 R) : trace (f.mapMatrix A) = f (trace A) := by
  simp [trace]

theorem rChain_map (b : Bool) (ss : List (Slot n)) : rChain (mapV f r) (mapV f l) b ss = f.mapMatrix (rChain r l b ss) := by
  induction ss generalizing b with
  | nil => simp [rChain]
  | cons s ss ih => rw [rChain, rChain, ih, rSlot_map, map_mul]

theorem rSum_map (b : Bool) (ls : List (Fin n)) : rSum (mapV f r) (mapV f l) b ls = f.mapMatrix (rSum r l b ls) := by
  induction ls with
  | nil => simp [rSum]
  | cons t s ih =>
    simp only [rSum, List.map_cons, List.sum_cons, map_add] at ih ⊢
    rw [ih, rMat_map]

theorem rS_map (ls : List (Fin n)) : rS (mapV f r) (mapV f l) ls = f (rS r l ls) := by
  rw [rS, rS, rSum_map, RingHom.map_det]

theorem rLeft_map (ch : Char) (a : Fin n) : rLeft (mapV f r) (mapV f l) ch a = fun j => f (rLeft r l ch a j) := by
  unfold rLeft
  split <;> (funext j; fin_cases j <;> simp [mapV])

theorem rRight_map (ch : Char) (a : Fin n) : rRight (mapV f r) (mapV f l) ch a = fun j => f (rRight r l ch a j) := by
  unfold rRight
  split <;> (funext j; fin_cases j <;> simp [mapV])

theorem rNB_map (first : Char) (a : Fin n) (mid : List (Slot n)) (d : Fin n) (last : Char) :
    rNB (mapV f r) (mapV f l) first a mid d last = (rNB r l first a mid d last).map f := by
  unfold rNB
  split
  · rfl
  · rw [rLeft_map, rRight_map, rChain_map]
    simp [Except.map, vecMul, dotProduct]

theorem both_map {α α' β β' γ γ' : Type*} (g : α → α') (g' : β → β') (h : γ → γ') (o : α → β → γ) (o' : α' → β' → γ')
    (ho : ∀ a b, o' (g a) (g' b) = h (o a b)) (x : Except Err α) (y : Except Err β) :
    both o' (x.map g) (y.map g') = (both o x y).map h := by
  cases x <;> cases y <;> simp [both, Except.map, ho]

theorem rTr5_map (a b c d : Slot n) : rTr5 (mapV f r) (mapV f l) a b c d = (rTr5 r l a b c d).map f := by
  unfold rTr5
  split
  · rw [rNB_map, rNB_map]
    exact both_map f f f _ _ (fun x y => (map_sub f x y).symm) _ _
  · rfl

theorem Scal.over_map (s : Scal n) : s.over (mapV f r) (mapV f l) = (s.over r l).map f := by
  induction s with
  | int z => simp [Scal.over, Except.map]
  | two ang a b => cases ang <;> simp [Scal.over, Except.map, mapV]
  | string first a mid d last => exact rNB_map f r l ..
  | tr mid => simp [Scal.over, Except.map, rChain_map, trace]
  | tr5 a b c d => exact rTr5_map f r l ..
  | mandel ls => simp [Scal.over, Except.map, rS_map]
  | omega A B C => cases A <;> simp [Scal.over, rOmega, Except.map, rS_map, map_ofNat f 2]
  | pi A C =>
    rcases A with _ | ⟨_, _ | ⟨_, _⟩⟩ <;> simp [Scal.over, rPi, Except.map, rS_map]
  | d5 => simp [Scal.over, Except.map, rS_map, rD5, map_ofNat f 2]
  | add s t hs ht => rw [Scal.over, Scal.over, hs, ht]; exact both_map f f f _ _ (fun x y => (map_add f x y).symm) _ _
  | mul s t hs ht => rw [Scal.over, Scal.over, hs, ht]; exact both_map f f f _ _ (fun x y => (map_mul f x y).symm) _ _
  | neg s hs => rw [Scal.over, Scal.over, hs]; cases s.over r l <;> simp [Except.map]

theorem Cov.over4_map (s : Cov n) : s.over4 (mapV f r) (mapV f l) = (s.over4 r l).map (List.map f) := by
  cases s with
  | scal s => rw [Cov.over4, Cov.over4, Scal.over_map]; cases s.over r l <;> simp [Except.map, map_ofNat f 4]
  | openBegin mid d last => simp [Cov.over4, Except.map, rRight_map, rChain_map, mulVec, dotProduct, map_ofNat f 4]
  | openEnd first a mid => simp [Cov.over4, Except.map, rLeft_map, rChain_map, vecMul, dotProduct, map_ofNat f 4]
  | doubleOpen mid => simp [Cov.over4, Except.map, rChain_map, map_ofNat f 4]
  | delta A B C =>
    simp only [Cov.over4, Except.map, rSum_map, ← map_mul f.mapMatrix, trace_map', List.map_cons, List.map_nil, map_neg, map_sub, map_mul f]

theorem rMom_map : rMom (mapV f r) (mapV f l) = (rMom r l).map f := by
  simp only [rMom, rMat_map, ← map_sum f.mapMatrix]
  simp only [RingHom.mapMatrix_apply, Matrix.map_apply, List.map_cons, List.map_nil]

end ring

/-! ### At a point -/

section field
variable {K : Type*} [Field K] {n : ℕ} {c : Ctx K} {ps : Point K n} {r l : Fin n → V2 K}

theorem Spin.r2b_eq (h : Spin c ps r l) (k : Fin n) : (ps k).r2b = rMat r l true k := by
  rw [(h k).r2b]; ext i j; fin_cases i <;> fin_cases j <;> simp [rMat, outer_apply]

theorem Spin.r2_eq' (h : Spin c ps r l) (k : Fin n) : (ps k).r2 = rMat r l false k := by
  rw [(h k).r2]; ext i j; fin_cases i <;> fin_cases j <;> simp [rMat, outer_apply]

theorem Spin.chain_eq (h : Spin c ps r l) (b : Bool) (ss : List (Slot n)) : chain ps b ss = rChain r l b ss := by
  induction ss generalizing b with
  | nil => simp [chain, rChain]
  | cons s ss ih =>
    rw [chain_cons, rChain, ih]
    congr 1
    cases b
    · simp only [slotMat, rSlot, barOf, h.r2_eq', Bool.false_eq_true, if_false]
    · simp only [slotMat, rSlot, barOf, h.r2b_eq, if_true]

theorem Spin.sumR2_eq (h : Spin c ps r l) (ls : List (Fin n)) : sumR2 ps ls = rSum r l false ls := by
  simp only [sumR2, rSum, h.r2_eq']

theorem Spin.sumR2b_eq (h : Spin c ps r l) (ls : List (Fin n)) : sumR2b ps ls = rSum r l true ls := by
  simp only [sumR2b, rSum, h.r2b_eq]

theorem pyDet_two' (M : M2 K) : pyDet 2 M = M.det := by
  rw [Matrix.det_fin_two]
  simp [pyDet, Fin.sum_univ_two, Matrix.submatrix, Fin.succAbove]; ring

theorem Spin.computeS_eq (h : Spin c ps r l) (ls : List (Fin n)) : computeS ps ls = rS r l ls := by
  rw [computeS, h.sumR2_eq, pyDet_two', rS]

theorem Spin.left_eq (h : Spin c ps r l) (first : Char) (a : Fin n) :
    (if first = '⟨' then need (ps a).r_u else need (ps a).l_d) = .ok (rLeft r l first a) := by
  rw [(h a).toHasSpinors.r_u, (h a).l_d, need_some, need_some, rLeft]
  split <;> rfl

theorem Spin.right_eq (h : Spin c ps r l) (last : Char) (d : Fin n) :
    (if last = '⟩' then need (ps d).r_d else need (ps d).l_u) = .ok (rRight r l last d) := by
  rw [(h d).toHasSpinors.l_u, (h d).r_d, need_some, need_some, rRight]
  split <;> rfl

theorem Spin.computeNB_eq (h : Spin c ps r l) (first : Char) (a : Fin n) (mid : List (Slot n)) (d : Fin n) (last : Char) :
    computeNB ps first a mid d last = rNB r l first a mid d last := by
  rw [computeNB, h.left_eq, h.right_eq, h.chain_eq, rNB]
  split
  · rfl
  · simp [dot2, dotProduct, Fin.sum_univ_two]

theorem Spin.value_eq (h : Spin c ps r l) (s : Scal n) : s.value ps = s.over r l := by
  induction s with
  | int z => rfl
  | two ang a b =>
    cases ang
    · simp [Scal.value, Scal.over, Lips.square, (h a).l_d, (h b).toHasSpinors.l_u, dot2]; ring
    · simp [Scal.value, Scal.over, Lips.angle, (h b).r_d, (h a).toHasSpinors.r_u, dot2]; ring
  | string first a mid d last => exact h.computeNB_eq ..
  | tr mid => rw [Scal.value, Scal.over, computeTr, h.chain_eq]
  | tr5 a b c d =>
    rw [Scal.value, Scal.over, computeTr5, rTr5]
    split
    · rename_i hh; simp only [hh, h.computeNB_eq]
      cases rNB r l '[' _ _ _ '⟩' <;> cases rNB r l '⟨' _ _ _ ']' <;> rfl
    · rename_i hh
      split
      · rename_i h2; exact absurd h2 (hh _ _ _ _ _)
      · rfl
  | mandel ls => rw [Scal.value, Scal.over, h.computeS_eq]
  | omega A B C => cases A <;> simp only [Scal.value, Scal.over, computeOmega, rOmega, h.computeS_eq]
  | pi A C => rcases A with _ | ⟨_, _ | ⟨_, _⟩⟩ <;> simp only [Scal.value, Scal.over, computePi, rPi, h.computeS_eq]
  | d5 => simp only [Scal.value, Scal.over, computeD5, rD5, h.computeS_eq]
  | add s t hs ht => rw [Scal.value, Scal.over, hs, ht]
  | mul s t hs ht => rw [Scal.value, Scal.over, hs, ht]
  | neg s hs => rw [Scal.value, Scal.over, hs]

theorem Spin.cov_eq [NeZero (2 : K)] (h : Spin c ps r l) (s : Cov n) : (s.value ps).map (List.map (4 * ·)) = s.over4 r l := by
  cases s with
  | scal s => rw [Cov.value, Cov.over4, h.value_eq]; cases s.over r l <;> simp [Except.map]
  | openBegin mid d last =>
    rw [Cov.value, computeOpenBegin, h.right_eq, h.chain_eq]; simp [Cov.over4, Except.map]
  | openEnd first a mid =>
    rw [Cov.value, computeOpenEnd, h.left_eq, h.chain_eq]; simp [Cov.over4, Except.map]
  | doubleOpen mid => simp [Cov.value, Cov.over4, Except.map, computeDoubleOpen, h.chain_eq]
  | delta A B C =>
    have h2 : (2 : K) ≠ 0 := NeZero.ne _
    have e : ∀ M : Matrix (Fin (1 + 1)) (Fin (1 + 1)) K, pyDet (1 + 1) M = M 0 0 * M 1 1 - M 0 1 * M 1 0 := fun M =>
      (pyDet_two' M).trans (Matrix.det_fin_two M)
    have e0 : (Fin.castSucc (0 : Fin 2)) = (0 : Fin 3) := rfl
    have e1 : (Fin.castSucc (1 : Fin 2)) = (1 : Fin 3) := rfl
    simp only [Cov.value, Cov.over4, Except.map, computeDelta, e, gram, h.sumR2_eq, h.sumR2b_eq, submatrix_apply, of_apply, List.map_cons,
      List.map_nil, e0, e1]
    simp only [Matrix.cons_val_zero, Matrix.cons_val_one]
    congr 2
    field_simp
    ring

theorem Spin.mom_eq (h : Spin c ps r l) : momEntries ps = rMom r l := by
  simp only [momEntries, totalMom, rMom, h.r2_eq']

end field

end Lips
