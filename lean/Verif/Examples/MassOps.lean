import Verif.Props.MassOps

/-! Cases for property C115. -/

namespace Lips

/-- A clean program with every command: a set of names, a point from it, one from a dictionary, an assignment to the first, copy, slice, cluster, subs. -/
private def prog : List (MCmd ℕ) :=
  [.box .set ["mt".toList], .names 0 (fun _ => 5), .dict [("mh".toList, 7)], .assign 0 "mw".toList 3, .image 0, .assign 0 "mt".toList 4, .slice 1,
    .cluster 2 (· + 1), .subs 2 fun v => .ok (2 * v)]

private theorem usable_mt : Usable "mt".toList := ⟨(isMassName_iff _).mp (by decide +kernel), by decide +kernel⟩
private theorem usable_mh : Usable "mh".toList := ⟨(isMassName_iff _).mp (by decide +kernel), by decide +kernel⟩
private theorem usable_mw : Usable "mw".toList := ⟨(isMassName_iff _).mp (by decide +kernel), by decide +kernel⟩

example : CleanRun ⟨[], []⟩ prog := by
  refine ⟨trivial, ⟨by simp [mStep], ?_⟩, ?_, ?_, trivial, ?_, trivial, trivial, ?_, trivial⟩
  · intro x hx
    simp only [mStep, List.nil_append, List.getElem?_cons_zero, Option.some.injEq] at hx
    subst hx
    exact ⟨rfl, by simp, by simpa using usable_mt⟩
  · intro kv hkv
    simp only [List.mem_singleton] at hkv
    subst hkv; exact usable_mh
  · show "mw".toList ∉ readOnly
    decide +kernel
  · show "mt".toList ∉ readOnly
    decide +kernel
  · exact fun _ _ _ _ v _ => ⟨2 * v, rfl⟩

/-- Five points; the copy has the old `mt`. -/
example : ((List.range 5).map fun p => ((mRun ⟨[], []⟩ prog).get p).bind massDict) =
    [some [("mt".toList, 4), ("mw".toList, 3)], some [("mh".toList, 7)], some [("mt".toList, 10), ("mw".toList, 6)], some [],
      some [("mt".toList, 6), ("mw".toList, 4)]] := by decide +kernel

/-- A shared set. -/
example : ["mt".toList].Nodup ∧ (∀ k ∈ ["mt".toList], Usable k) ∧ Usable "mh".toList ∧ "mh".toList ∉ ["mt".toList] :=
  ⟨by simp, by simpa using usable_mt, usable_mh, by decide +kernel⟩

/-- A point without masses meets the hypotheses of `C115_property_registered`. -/
example : ∃ (w : MWorld ℕ) (s : MSpec ℕ) (st : MassState ℕ), MInv w s ∧ w.get 0 = some st ∧ MassForm "ms".toList ∧ "ms".toList ∈ readOnly ∧
    attrOf st "ms".toList = none :=
  ⟨_, _, ⟨.set, [], false, []⟩, run_inv [.dict []] MInv.empty ⟨by simp [MCmd.clean], trivial⟩, rfl, (isMassName_iff _).mp (by decide +kernel),
    by decide +kernel, rfl⟩

end Lips
