import Verif.Props.HeapCopy
import Verif.Props.Components

/-!
C112: the loops of `make_analytical_d` and `subs` are those of Model/Components; and what slices, clusters and assigned arrays do.
-/

namespace Lips

set_option linter.unusedSectionVars false

variable {K : Type*} [Field K] {n : ℕ}

/-! ### The loops -/

/-- The action of `make_analytical_d` on particle `j`. -/
def analyticActs (mask : List ℤ) (s : ℕ → Fin 4 → K) (j : ℕ) : Option (Act K) := (maskOf mask j).map fun m => .analytic m (s j)

theorem range_head {ks : List (Fin n)} {k : Fin n} {j : ℕ} (h : (k :: ks).map Fin.val = List.range' j (ks.length + 1)) :
    k.val = j ∧ ks.map Fin.val = List.range' (j + 1) ks.length := by
  rw [List.map_cons, List.range'_succ] at h
  simpa using h

theorem analyticLoop_each (c : Ctx K) (mask : List ℤ) (s : ℕ → Fin 4 → K) (ks : List (Fin n)) : ∀ (j : ℕ) (ps : Point K n), ks.Nodup → ks.map Fin.val = List.range' j ks.length →
    (∀ ps', analyticLoop c mask (fun k => s k) ks ps = .ok ps' → eachVal c (analyticActs mask s) j (ks.map ps) = (ks.map ps', none) ∧ ∀ k ∉ ks, ps' k = ps k) ∧
    ∀ e, analyticLoop c mask (fun k => s k) ks ps = .error e → (eachVal c (analyticActs mask s) j (ks.map ps)).2 = some e := by
  induction ks with
  | nil =>
    refine fun j ps _ _ => ⟨fun ps' h => ?_, fun e h => by cases h⟩
    cases h
    exact ⟨rfl, fun _ _ => rfl⟩
  | cons k ks ih =>
    intro j ps hn hj
    obtain ⟨hk, hj'⟩ := range_head hj
    rw [List.nodup_cons] at hn
    rw [List.map_cons, analyticLoop, eachVal, analyticActs, hk]
    rcases hm : maskOf mask j with _ | m
    · exact ⟨fun ps' h => (by cases h), fun e h => by cases h; rfl⟩
    simp only [Option.map_some, actVal, store, Out.toExcept]
    rcases analyticOne c (ps k) m (s j) with ⟨p', _ | e⟩ <;> simp only
    · have hu : ks.map (Function.update ps k p') = ks.map ps := List.map_congr_left fun i hi => Function.update_of_ne (fun e : i = k => hn.1 (e ▸ hi)) ..
      obtain ⟨h1, h2⟩ := ih (j + 1) (Function.update ps k p') hn.2 hj'
      rw [hu] at h1 h2
      refine ⟨fun ps' h => ?_, fun e h => h2 e h⟩
      obtain ⟨h3, h4⟩ := h1 ps' h
      rw [h3]
      refine ⟨?_, fun i hi => ?_⟩
      · rw [List.map_cons, h4 k hn.1, Function.update_self]
      · rw [List.mem_cons, not_or] at hi
        rw [h4 i hi.2, Function.update_of_ne hi.1]
    · exact ⟨fun ps' h => (by cases h), fun e h => by cases h; rfl⟩

theorem subsLoop_each (c : Ctx K) (f : K → K) (ks : List (Fin n)) : ∀ (j : ℕ) (ps : Point K n), ks.Nodup →
    (∀ ps', subsLoop c f ks ps = .ok ps' → eachVal c (fun _ => some (.subs f)) j (ks.map ps) = (ks.map ps', none) ∧ ∀ k ∉ ks, ps' k = ps k) ∧
    ∀ e, subsLoop c f ks ps = .error e → (eachVal c (fun _ => some (.subs f)) j (ks.map ps)).2 = some e := by
  induction ks with
  | nil =>
    refine fun j ps _ => ⟨fun ps' h => ?_, fun e h => by cases h⟩
    cases h
    exact ⟨rfl, fun _ _ => rfl⟩
  | cons k ks ih =>
    intro j ps hn
    rw [List.nodup_cons] at hn
    rw [List.map_cons, subsLoop, eachVal]
    simp only [actVal, subsOne, store, Out.toExcept]
    rcases (ps k).r_d with _ | r <;> simp only
    · exact ⟨fun ps' h => (by cases h), fun e h => by cases h; rfl⟩
    rcases setRd c (ps k) ![f (r 0), f (r 1)] with ⟨p', _ | e⟩ <;> simp only [Function.update_self]
    · rcases p'.l_d with _ | l <;> simp only
      · exact ⟨fun ps' h => (by cases h), fun e h => by cases h; rfl⟩
      rcases setLd c p' ![f (l 0), f (l 1)] with ⟨p'', _ | e⟩ <;> simp only [Function.update_idem]
      · have hu : ks.map (Function.update ps k p'') = ks.map ps := List.map_congr_left fun i hi => Function.update_of_ne (fun e : i = k => hn.1 (e ▸ hi)) ..
        obtain ⟨h1, h2⟩ := ih (j + 1) (Function.update ps k p'') hn.2
        rw [hu] at h1 h2
        refine ⟨fun ps' h => ?_, fun e h => h2 e h⟩
        obtain ⟨h3, h4⟩ := h1 ps' h
        rw [h3]
        refine ⟨?_, fun i hi => ?_⟩
        · rw [List.map_cons, h4 k hn.1, Function.update_self]
        · rw [List.mem_cons, not_or] at hi
          rw [h4 i hi.2, Function.update_of_ne hi.1]
      · exact ⟨fun ps' h => (by cases h), fun e h => by cases h; rfl⟩
    · exact ⟨fun ps' h => (by cases h), fun e h => by cases h; rfl⟩

/-- C112: `make_analytical_d` of Model/Components, on values, is the loop of the model in memory. -/
theorem C112_make_analytical (c : Ctx K) (ps : Point K n) (mask : Option (List ℤ)) (s : ℕ → Fin 4 → K) :
    (∀ ps', makeAnalytical c ps mask (fun k => s k) = .ok ps' →
      eachVal c (analyticActs (mask.getD (List.replicate (4 * n) 0)) s) 0 (List.ofFn ps) = (List.ofFn ps', none)) ∧
    ∀ e, makeAnalytical c ps mask (fun k => s k) = .error e → (eachVal c (analyticActs (mask.getD (List.replicate (4 * n) 0)) s) 0 (List.ofFn ps)).2 = some e := by
  have hr : (List.finRange n).map Fin.val = List.range' 0 (List.finRange n).length := by simp [List.range_eq_range']
  obtain ⟨h1, h2⟩ := analyticLoop_each c (mask.getD (List.replicate (4 * n) 0)) s (List.finRange n) 0 ps (List.nodup_finRange n) hr
  simp only [List.ofFn_eq_map]
  exact ⟨fun ps' h => (h1 ps' h).1, h2⟩

/-- C112: and so is `subs`. -/
theorem C112_subs (c : Ctx K) (ps : Point K n) (f : K → K) :
    (∀ ps', subsPoint c f ps = .ok ps' → eachVal c (fun _ => some (.subs f)) 0 (List.ofFn ps) = (List.ofFn ps', none)) ∧
    ∀ e, subsPoint c f ps = .error e → (eachVal c (fun _ => some (.subs f)) 0 (List.ofFn ps)).2 = some e := by
  obtain ⟨h1, h2⟩ := subsLoop_each c f (List.finRange n) 0 ps (List.nodup_finRange n)
  simp only [List.ofFn_eq_map]
  exact ⟨fun ps' h => (h1 ps' h).1, h2⟩

/-! ### Sharing -/

/-- The memory after a list of commands. -/
noncomputable def after (c : Ctx K) (h : Heap K) (l : List (Cmd K)) : Mem K := l.foldl (fun m x => (stepHeap c m x).1) ⟨h, []⟩

/-- C112: what is done to a slice is done to the point it was taken from. -/
theorem C112_slice_shared (c : Ctx K) (h : Heap K) (v : Particle K) (a : Act K) :
    (after c h [.new [v], .pick [(0, 0)], .act 1 0 a]).seen = [[(actVal c v a).st], [(actVal c v a).st]] := by
  obtain ⟨g, -, e, n⟩ := Good.new (w := true) (h := h) (live := []) ⟨by simp, by simp, by simp, by simp⟩ v
  obtain ⟨-, -, h1, -⟩ := g.act c (i := h.no) (by simp) a fun _ => rfl
  rw [e] at h1
  simp only [after, List.foldl_cons, List.foldl_nil, stepHeap, Heap.news, List.nil_append, List.mapM_cons, List.mapM_nil, addr, Mem.seen]
  simp [h1]

/-- The right spinor after `make_analytical_d`. -/
def newR (m : Fin 4 → ℤ) (s : Fin 4 → K) (r : V2 K) : V2 K := ![if m 0 = 0 then s 0 else r 0, if m 1 = 0 then s 1 else r 1]

/-- The left spinor after `make_analytical_d`. -/
def newL (m : Fin 4 → ℤ) (s : Fin 4 → K) (l : V2 K) : V2 K := ![if m 2 = 0 then s 2 else l 0, if m 3 = 0 then s 3 else l 1]

/-- A particle whose spinors are at `x` and `y`, where something has been written. -/
theorem val_stale {h : Heap K} {i x y : ℕ} {v : Particle K} {r l : V2 K} (ho : h.obj i = ⟨v, some x, some y⟩) (hx : h.arr x = r) (hy : h.arr y = l) :
    h.val i = { v with r_d := some r, l_d := some l } := by
  rw [Heap.val, ho, Obj.val]
  simp [hx, hy]

theorem analytic_arr {h : Heap K} {i x y : ℕ} {v : Particle K} (ho : h.obj i = ⟨v, some x, some y⟩) (hxy : x ≠ y) (c : Ctx K) (m : Fin 4 → ℤ) (s : Fin 4 → K) :
    (analyticHeap c h i m s).1.arr x = newR m s (h.arr x) ∧ (analyticHeap c h i m s).1.arr y = newL m s (h.arr y) ∧
    (∀ z, z ≠ x → z ≠ y → (analyticHeap c h i m s).1.arr z = h.arr z) ∧ ∀ j, j ≠ i → (analyticHeap c h i m s).1.obj j = h.obj j := by
  simp only [analyticHeap, ho, Heap.write, Heap.setObj]
  refine ⟨?_, ?_, fun z h1 h2 => ?_, fun j hj => Function.update_of_ne hj ..⟩
  · rw [Function.update_of_ne hxy, Function.update_self]
    rfl
  · rw [Function.update_self, Function.update_of_ne hxy.symm]
    rfl
  · rw [Function.update_of_ne h2, Function.update_of_ne h1]

/-- C112: `make_analytical_d` on a cluster of single particles writes into the spinors of the point that was clustered, and leaves everything else of it
as it was. -/
theorem C112_cluster_shared (c : Ctx K) (h : Heap K) (v : Particle K) {r l : V2 K} (hr : v.r_d = some r) (hl : v.l_d = some l) (m : Fin 4 → ℤ) (s : Fin 4 → K) :
    (after c h [.new [v], .cluster 0 [[0]], .act 1 0 (.analytic m s)]).seen =
      [[{ v with r_d := some (newR m s r), l_d := some (newL m s l) }], [(analyticOne c v m s).st]] := by
  obtain ⟨h₂, e₂⟩ : ∃ h₂ : Heap K, h₂ = { ((h.new v).setObj (h.new v).no ((h.new v).obj h.no)) with no := (h.new v).no + 1 } := ⟨_, rfl⟩
  have o₁ : (h.new v).obj h.no = ⟨v, some h.na, some (h.na + 1)⟩ := by
    change (h.putBoth h.no v).obj h.no = _
    rw [Heap.putBoth, setObj_self, hr, hl]
    rfl
  have oa : h₂.obj h.no = ⟨v, some h.na, some (h.na + 1)⟩ := by
    rw [e₂]
    change ((h.new v).setObj (h.new v).no ((h.new v).obj h.no)).obj h.no = _
    rw [setObj_ne _ _ (by change h.no ≠ h.no + 1; omega), o₁]
  have ob : h₂.obj (h.no + 1) = ⟨v, some h.na, some (h.na + 1)⟩ := by
    rw [e₂]
    change ((h.new v).setObj (h.no + 1) ((h.new v).obj h.no)).obj (h.no + 1) = _
    rw [setObj_self, o₁]
  have ax : h₂.arr h.na = r := by
    rw [e₂]
    change (h.alloc v.r_d v.l_d).arr h.na = r
    rw [alloc_fst, hr]
    rfl
  have ay : h₂.arr (h.na + 1) = l := by
    rw [e₂]
    change (h.alloc v.r_d v.l_d).arr (h.na + 1) = l
    rw [alloc_snd, hl]
    rfl
  have an : h₂.na = h.na + 2 := by rw [e₂]; rfl
  obtain ⟨k1, k2, -, k4⟩ := analytic_arr ob (by omega) c m s
  rw [ax] at k1
  rw [ay] at k2
  have vb : h₂.val (h.no + 1) = v := by
    rw [val_stale ob ax ay]
    cases v
    simp only at hr hl
    rw [hr, hl]
  have hb := (act_value c h₂ (h.no + 1) (.analytic m s) (by rw [ob, an]; simp [Obj.refs]) (by rw [ob]; simp [Obj.refs])).1
  rw [vb] at hb
  have ha : (actHeap c h₂ (h.no + 1) (.analytic m s)).1.val h.no = _ := val_stale ((k4 h.no (by omega)).trans oa) k1 k2
  have hm : after c h [.new [v], .cluster 0 [[0]], .act 1 0 (.analytic m s)] = ⟨(actHeap c h₂ (h.no + 1) (.analytic m s)).1, [[h.no], [h.no + 1]]⟩ := by
    rw [e₂]
    rfl
  rw [hm]
  simp only [Mem.seen, List.map_cons, List.map_nil]
  rw [ha, hb]
  rfl

/-- C112: the clustered point is then inconsistent, unless the spinor happens to be the same. -/
theorem C112_cluster_stale (c : Ctx K) (v : Particle K) {r : V2 K} (hr : v.r_d = some r) (hc : Consistent c v) {r' l' : V2 K} (hne : r' ≠ r) :
    ¬ Consistent c { v with r_d := some r', l_d := some l' } := by
  intro h
  rcases hu : v.r_u with _ | u
  · have := hc.spin.r_none.2 hu
    rw [hr] at this
    cases this
  · obtain ⟨h1, h2⟩ := hc.spin.r_up r u hr hu
    obtain ⟨h3, h4⟩ := h.spin.r_up r' u rfl hu
    refine hne (funext fun i => ?_)
    fin_cases i
    · simpa using h4.symm.trans h2
    · exact h3.symm.trans h1

/-- C112: after `oPs["|1⟩"] = oPs["|2⟩"]`, `make_analytical_d` on the second particle writes into the right spinor of the first. -/
theorem C112_assigned_shared (c : Ctx K) (h : Heap K) (v w : Particle K) {r l r' l' : V2 K} (hr : v.r_d = some r) (hl : v.l_d = some l) (hr' : w.r_d = some r')
    (hl' : w.l_d = some l') (m : Fin 4 → ℤ) (s : Fin 4 → K) :
    (after c h [.new [v, w], .share 0 0 0 1, .act 0 1 (.analytic m s)]).seen =
      [[{ (setRd c v r').st with r_d := some (newR m s r') }, (analyticOne c w m s).st]] := by
  obtain ⟨h₁, e₁⟩ : ∃ h₁ : Heap K, h₁ = (h.new v).new w := ⟨_, rfl⟩
  have oa : h₁.obj h.no = ⟨v, some h.na, some (h.na + 1)⟩ := by
    rw [e₁, (ext_new (h.new v) w).obj _ (Nat.lt_succ_self _)]
    change (h.putBoth h.no v).obj h.no = _
    rw [Heap.putBoth, setObj_self, hr, hl]
    rfl
  have ob : h₁.obj (h.no + 1) = ⟨w, some (h.na + 2), some (h.na + 3)⟩ := by
    rw [e₁]
    change ((h.new v).putBoth (h.no + 1) w).obj (h.no + 1) = _
    rw [Heap.putBoth, setObj_self, hr', hl']
    rfl
  have alow : ∀ a < h.na + 2, h₁.arr a = (h.new v).arr a := fun a ha => by
    rw [e₁]
    exact (ext_new (h.new v) w).arr a ha
  have a0 : h₁.arr h.na = r := by
    rw [alow _ (by omega)]
    change (h.alloc v.r_d v.l_d).arr h.na = r
    rw [alloc_fst, hr]
    rfl
  have a1 : h₁.arr (h.na + 1) = l := by
    rw [alow _ (by omega)]
    change (h.alloc v.r_d v.l_d).arr (h.na + 1) = l
    rw [alloc_snd, hl]
    rfl
  have a2 : h₁.arr (h.na + 2) = r' := by
    rw [e₁]
    change ((h.new v).alloc w.r_d w.l_d).arr (h.new v).na = r'
    rw [alloc_fst, hr']
    rfl
  have a3 : h₁.arr (h.na + 3) = l' := by
    rw [e₁]
    change ((h.new v).alloc w.r_d w.l_d).arr ((h.new v).na + 1) = l'
    rw [alloc_snd, hl']
    rfl
  have va : h₁.val h.no = v := by
    rw [val_stale oa a0 a1]
    cases v
    simp only at hr hl
    rw [hr, hl]
  have vb : h₁.val (h.no + 1) = w := by
    rw [val_stale ob a2 a3]
    cases w
    simp only at hr' hl'
    rw [hr', hl']
  have an : h₁.na = h.na + 4 := by rw [e₁]; rfl
  obtain ⟨h₂, e₂⟩ : ∃ h₂ : Heap K, h₂ = h₁.setObj h.no ⟨(setRd c v r').st, some (h.na + 2), some (h.na + 1)⟩ := ⟨_, rfl⟩
  have oa' : h₂.obj h.no = ⟨(setRd c v r').st, some (h.na + 2), some (h.na + 1)⟩ := by rw [e₂, setObj_self]
  have ob' : h₂.obj (h.no + 1) = ⟨w, some (h.na + 2), some (h.na + 3)⟩ := by rw [e₂, setObj_ne _ _ (by omega), ob]
  have vb' : h₂.val (h.no + 1) = w := by
    rw [e₂]
    unfold Heap.val
    rw [setObj_ne _ _ (by omega)]
    exact vb
  obtain ⟨k1, k2, k3, k4⟩ := analytic_arr ob' (by omega) c m s
  have hb := (act_value c h₂ (h.no + 1) (.analytic m s) (by rw [ob', show h₂.na = h.na + 4 by rw [e₂]; exact an]; simp [Obj.refs]) (by rw [ob']; simp [Obj.refs])).1
  rw [vb'] at hb
  have arr₂ : h₂.arr = h₁.arr := by rw [e₂]; rfl
  rw [arr₂, a2] at k1
  have k3' := k3 (h.na + 1) (by omega) (by omega)
  rw [arr₂, a1] at k3'
  have ha : (actHeap c h₂ (h.no + 1) (.analytic m s)).1.val h.no = _ := val_stale ((k4 h.no (by omega)).trans oa') k1 k3'
  have hm : after c h [.new [v, w], .share 0 0 0 1, .act 0 1 (.analytic m s)] = ⟨(actHeap c h₂ (h.no + 1) (.analytic m s)).1, [[h.no, h.no + 1]]⟩ := by
    have hs : stepHeap c ⟨h₁, [[h.no, h.no + 1]]⟩ (.share 0 0 0 1) = (⟨h₂, [[h.no, h.no + 1]]⟩, (setRd c v r').err) := by
      simp only [stepHeap, addr, List.getElem?_cons_zero, Option.bind_some, List.getElem?_cons_succ, ob, shareHeap, oa, va, a2, e₂]
    have hn : stepHeap c ⟨h, []⟩ (.new [v, w]) = (⟨h₁, [[h.no, h.no + 1]]⟩, none) := by
      rw [e₁]
      rfl
    simp only [after, List.foldl_cons, List.foldl_nil, hn, hs]
    rfl
  rw [hm]
  simp only [Mem.seen, List.map_cons, List.map_nil]
  rw [ha, hb]
  have : (setRd c v r').st.l_d = some l := by rw [(setRd_spinors c v r').2, hl]
  rcases hq : (setRd c v r').st with ⟨⟩
  rw [hq] at this
  simp only at this
  rw [this]
  rfl

end Lips
