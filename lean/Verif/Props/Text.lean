import Verif.Model.Text
import Verif.Spec.Text
import Verif.Props.Image

/-!
Property C52: textual substitution.
-/

namespace Lips

theorem firstMatch_none {d : List (List Char × List Char)} {t : List Char} :
    firstMatch d t = none ↔ ∀ kv ∈ d, ¬ kv.1 <+: t := by
  simp [firstMatch, List.find?_eq_none]

theorem firstMatch_some {d : List (List Char × List Char)} {t : List Char}
    {kv : List Char × List Char} : firstMatch d t = some kv ↔
      kv.1 <+: t ∧ ∃ pre post, d = pre ++ kv :: post ∧ ∀ x ∈ pre, ¬ x.1 <+: t := by
  rw [firstMatch, List.find?_eq_some_iff_append]
  simp [Bool.eq_false_iff]

theorem subsScan_skip (d : List (List Char × List Char)) (a b : List Char) :
    subsScan d a.length (a ++ b) = subsScan d 0 b := by
  induction a with
  | nil => rfl
  | cons x a ih => simpa [subsScan] using ih

/-- `subsScan` one match at a time. -/
theorem subsScan_match {d : List (List Char × List Char)} {k v t : List Char} (hk : k ≠ [])
    (h : firstMatch d (k ++ t) = some (k, v)) : subsScan d 0 (k ++ t) = v ++ subsScan d 0 t := by
  cases k with
  | nil => exact absurd rfl hk
  | cons x k =>
    rw [List.cons_append] at h ⊢
    simp only [subsScan, h, List.length_cons, Nat.add_sub_cancel, subsScan_skip]

theorem subsScan_keep {d : List (List Char × List Char)} {c : Char} {t : List Char}
    (h : firstMatch d (c :: t) = none) : subsScan d 0 (c :: t) = c :: subsScan d 0 t := by
  simp only [subsScan, h]

theorem subsScan_rewrites (d : List (List Char × List Char)) (hd : ∀ kv ∈ d, kv.1 ≠ []) :
    ∀ (m : ℕ) (t : List Char), t.length ≤ m → Rewrites d t (subsScan d 0 t) := by
  intro m
  induction m with
  | zero =>
    intro t ht
    obtain rfl := List.eq_nil_of_length_eq_zero (Nat.le_zero.mp ht)
    exact .nil
  | succ m ih =>
    intro t ht
    cases t with
    | nil => exact .nil
    | cons c t =>
      cases h : firstMatch d (c :: t) with
      | none =>
        rw [subsScan_keep h]
        exact .keep c t _ (firstMatch_none.1 h) (ih t (by simpa using ht))
      | some kv =>
        obtain ⟨⟨rest, hr⟩, pre, post, hs, hf⟩ := firstMatch_some.1 h
        obtain ⟨k, v⟩ := kv
        have hk : k ≠ [] := hd (k, v) (by rw [hs]; simp)
        have hlen : 0 < k.length := List.length_pos_iff.2 hk
        simp only at hr
        rw [← hr] at h ht ⊢
        rw [subsScan_match hk h]
        refine .replace pre post k v rest _ hs (by rw [hr]; exact hf) (ih rest ?_)
        simp only [List.length_append] at ht
        omega

theorem rewrites_eq (d : List (List Char × List Char)) (hd : ∀ kv ∈ d, kv.1 ≠ []) {t o : List Char}
    (h : Rewrites d t o) : o = subsScan d 0 t := by
  induction h with
  | nil => rfl
  | keep c t o no _ ih => rw [subsScan_keep (firstMatch_none.2 no), ih]
  | replace pre post k v t o split first _ ih =>
    have hk : k ≠ [] := hd (k, v) (by rw [split]; simp)
    rw [subsScan_match hk (firstMatch_some.2 ⟨⟨t, rfl⟩, pre, post, split, first⟩), ih]

/-- C52: `subs_dict` is the single left-to-right replacement: its result, and nothing else, is
obtained from the text by replacing leftmost non-overlapping occurrences once, without looking at
the inserted text. -/
theorem C52_subs_dict (t o : List Char) (d : List (List Char × List Char)) (hne : d ≠ [])
    (hd : ∀ kv ∈ d, kv.1 ≠ []) : subsDict t d = .ok o ↔ Rewrites d t o := by
  rw [subsDict, if_neg hne]
  constructor
  · intro h
    cases h
    exact subsScan_rewrites d hd t.length t le_rfl
  · intro h
    rw [rewrites_eq d hd h]

/-- C52: text without any key is returned unchanged. -/
theorem C52_untouched (t : List Char) (d : List (List Char × List Char)) (hne : d ≠ [])
    (hd : ∀ kv ∈ d, kv.1 ≠ []) (h : ∀ kv ∈ d, ¬ kv.1 <:+: t) : subsDict t d = .ok t := by
  rw [C52_subs_dict t t d hne hd]
  induction t with
  | nil => exact .nil
  | cons c t ih =>
    refine .keep c t t (fun kv hkv hp => h kv hkv hp.isInfix) (ih fun kv hkv hi => ?_)
    exact h kv hkv (hi.trans (List.suffix_cons c t).isInfix)

/-- C52: with no substitutions at all the call raises. -/
theorem C52_empty_raises (t : List Char) : subsDict t [] = .error .keyError := rfl

/-- A dictionary whose keys are single characters acts character by character. -/
theorem subsScan_chars (f : List (Char × List Char)) (t : List Char) :
    subsScan (f.map fun kv => ([kv.1], kv.2)) 0 t =
      t.flatMap fun c => ((f.find? fun kv => kv.1 == c).map Prod.snd).getD [c] := by
  induction t with
  | nil => rfl
  | cons c t ih =>
    have hm : firstMatch (f.map fun kv => ([kv.1], kv.2)) (c :: t) =
        (f.find? fun kv => kv.1 == c).map fun kv => ([kv.1], kv.2) := by
      rw [firstMatch, List.find?_map]
      congr 2
      funext kv
      simp [List.isPrefixOf]
    rw [List.flatMap_cons, ← ih]
    cases h : f.find? fun kv => kv.1 == c with
    | none => rw [h] at hm; rw [subsScan_keep hm]; rfl
    | some kv =>
      rw [h] at hm
      simp only [subsScan, hm, Option.map_some, List.length_singleton, Nat.sub_self, Option.getD_some]

/-- The ten bold characters. -/
def boldChars : List Char := ['𝟎', '𝟏', '𝟐', '𝟑', '𝟒', '𝟓', '𝟔', '𝟕', '𝟖', '𝟗']

theorem rsubs_bold_table : dictOf [] (boldDigits.map fun kv => (kv.2, kv.1)) =
    boldDigits.map fun kv => (kv.2, kv.1) := by decide

/-- The bold table, single characters. -/
def boldPairs : List (Char × List Char) :=
  [('0', ['𝟎']), ('1', ['𝟏']), ('2', ['𝟐']), ('3', ['𝟑']), ('4', ['𝟒']), ('5', ['𝟓']),
   ('6', ['𝟔']), ('7', ['𝟕']), ('8', ['𝟖']), ('9', ['𝟗'])]

/-- The reversed table. -/
def plainPairs : List (Char × List Char) :=
  [('𝟎', ['0']), ('𝟏', ['1']), ('𝟐', ['2']), ('𝟑', ['3']), ('𝟒', ['4']), ('𝟓', ['5']),
   ('𝟔', ['6']), ('𝟕', ['7']), ('𝟖', ['8']), ('𝟗', ['9'])]

/-- C52: on text without bold digits `rsubs_dict` undoes `subs_dict` for the bold-digit table. -/
theorem C52_bold_digits_undone (t : List Char) (h : ∀ c ∈ t, c ∉ boldChars) :
    ∃ b, subsDict t boldDigits = .ok b ∧ rsubsDict b boldDigits = .ok t := by
  have hb : boldDigits = boldPairs.map fun kv => ([kv.1], kv.2) := rfl
  have hp : (boldDigits.map fun kv => (kv.2, kv.1)) = plainPairs.map fun kv => ([kv.1], kv.2) := rfl
  refine ⟨subsScan boldDigits 0 t, by rw [subsDict, if_neg (by simp [boldDigits])], ?_⟩
  rw [rsubsDict, rsubs_bold_table, subsDict, if_neg (by simp [boldDigits]), hp, hb, subsScan_chars,
    subsScan_chars, List.flatMap_assoc]
  congr 1
  induction t with
  | nil => rfl
  | cons c t ih =>
    rw [List.flatMap_cons, ih fun x hx => h x (List.mem_cons_of_mem _ hx)]
    have hc := h c List.mem_cons_self
    suffices hs : ((((boldPairs.find? fun kv => kv.1 == c).map Prod.snd).getD [c]).flatMap fun c =>
        ((plainPairs.find? fun kv => kv.1 == c).map Prod.snd).getD [c]) = [c] by
      rw [hs]; rfl
    cases hf : boldPairs.find? fun kv => kv.1 == c with
    | some kv =>
      have hm := List.mem_of_find?_eq_some hf
      have hk := List.find?_some hf
      simp only [beq_iff_eq] at hk
      subst hk
      clear hf hc h ih
      simp only [Option.map_some, Option.getD_some]
      revert kv
      decide
    | none =>
      have : plainPairs.find? (fun kv => kv.1 == c) = none := by
        rw [List.find?_eq_none]
        intro kv hkv he
        simp only [beq_iff_eq] at he
        subst he
        apply hc
        clear hf hc h ih
        revert kv
        decide
      simp [this]

/-- C52: after `rsubs_dict` no bold digit is left, whatever the text. -/
theorem C52_no_bold_left (t : List Char) : ∃ p, rsubsDict t boldDigits = .ok p ∧
    ∀ c ∈ p, c ∉ boldChars := by
  have hp : (boldDigits.map fun kv => (kv.2, kv.1)) = plainPairs.map fun kv => ([kv.1], kv.2) := rfl
  refine ⟨_, by rw [rsubsDict, rsubs_bold_table, subsDict, if_neg (by simp [boldDigits])], ?_⟩
  rw [hp, subsScan_chars]
  intro x hx
  obtain ⟨c, _, hc⟩ := List.mem_flatMap.1 hx
  cases hf : plainPairs.find? fun kv => kv.1 == c with
  | some kv =>
    have hm := List.mem_of_find?_eq_some hf
    rw [hf] at hc
    simp only [Option.map_some, Option.getD_some] at hc
    clear hx hf
    revert x
    revert kv
    decide
  | none =>
    rw [hf] at hc
    simp only [Option.map_none, Option.getD_none, List.mem_singleton] at hc
    subst hc
    intro hb
    rw [List.find?_eq_none] at hf
    clear hx
    rename_i hmem
    clear hmem
    have : ∀ c ∈ boldChars, ∃ kv ∈ plainPairs, kv.1 = c := by decide
    obtain ⟨kv, hkv, he⟩ := this _ hb
    exact hf kv hkv (by simp [he])

/-! A text with two keys of which one is a prefix of the other; the replacement of the first is a
key again. -/
example : subsDict "abcab".toList [("ab".toList, "c".toList), ("c".toList, "ab".toList),
    ("a".toList, "x".toList)] = .ok "cabc".toList := by decide
example : subsDict "s12".toList boldDigits = .ok "s𝟏𝟐".toList := by decide

end Lips
