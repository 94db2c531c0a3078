import Verif.Proofs.Data

/-!
# C58: access to the data of nodes

`GRun past g`: the program is in state `g` after the calls `past` (last call first), any calls
whatsoever, guards included.
-/

set_option autoImplicit false

namespace Dendron
variable {α : Type} {past : List (GOp α × GRes α)} {g g' : GWorld α} {n : NodeId} {op : GOp α} {r : GRes α}
  {k : Kind} {d : α}

/-- The invariant. -/
structure GInv (past : List (GOp α × GRes α)) (g : GWorld α) : Prop where
  reach : ReachAny g.world
  holds : ∀ n, g.Guarded n → g.world.Holds n
  excl : ∀ n, 0 < g.shared n → g.world.heap.mutB n = false
  val : ∀ n, g.world.heap.alive n = true → g.world.heap.data n = lastStored past n
  refs : ∀ n, g.shared n = refsAlive past n
  muts : ∀ n, g.world.heap.mutB n = refMutAlive past n

private theorem stored_call {op : Op α} {r : Res} (hm : madeBy op = none) (hw : ∀ n, ¬ Writes op n) (x : NodeId) :
    Stored (.call op) (.call r) x = none := by
  cases op <;> simp only [madeBy, reduceCtorEq] at hm <;> first | rfl | exact absurd rfl (hw _)

private theorem stored_made {op : Op α} (hm : madeBy op = some d) (m x : NodeId) :
    Stored (.call op) (.call (.node (some m))) x = if x = m then some d else none := by
  cases op <;> simp only [madeBy, reduceCtorEq, Option.some.injEq] at hm <;> subst hm <;> rfl

private theorem stored_err {op : Op α} {e : HierarchyError} (x : NodeId) :
    Stored (.call op) (.call (.err e)) x = none := by
  cases op <;> rfl

private theorem refMut_call {op : Op α} {r : Res} (hw : ∀ n, ¬ Writes op n) (x : NodeId) :
    refMutAlive ((.call op, .call r) :: past) x = refMutAlive past x := by
  cases op <;> first | rfl | exact absurd rfl (hw _)

private theorem refs_call {op : Op α} {r : Res} (x : NodeId) :
    refsAlive ((.call op, .call r) :: past) x = refsAlive past x := rfl

private theorem made_not_writes {op : Op α} (hm : madeBy op = some d) : ∀ n, ¬ Writes op n := by
  cases op <;> simp only [madeBy, reduceCtorEq] at hm <;> exact fun _ h => h

private theorem holds_alive {w : World α} (R : ReachAny w) (hh : w.Holds n) : w.heap.alive n = true := by
  obtain ⟨k, hk⟩ := hh
  exact R.own.held_alive hk

/-- A call that returns, on the world. -/
private theorem GInv.call {op : Op α} {r : Res} {w' : World α} (I : GInv past g) (hal : g.world.Allowed op)
    (hs : ∀ n, GWorld.needsMut op = some n → g.shared n = 0)
    (e : g.world.exec op = .ok (w', r)) (hg : ∀ n, g.Guarded n → w'.Holds n) :
    GInv ((.call op, .call r) :: past) { g with world := w' } := by
  have R' : ReachAny w' := I.reach.step ⟨hal, e⟩
  have O := I.reach.own
  have O' := R'.own
  have hga : ∀ n, g.Guarded n → w'.heap.alive n = true := fun n h => holds_alive R' (hg n h)
  by_cases hw : ∃ n, Writes op n
  · -- writes
    obtain ⟨n, hw⟩ := hw
    cases op <;> simp only [Writes] at hw
    case write m d =>
      subst hw
      simp only [World.exec] at e
      split at e
      · cases e
        exact ⟨R', I.holds, I.excl, I.val, I.refs, I.muts⟩
      · cases e
        refine ⟨R', fun x hx => hg x hx, I.excl, ?_, I.refs, I.muts⟩
        intro x hx
        simp only [lastStored, Stored]
        by_cases ex : x = n
        · subst ex; simp [Heap.setData]
        · simp only [ex, if_false]
          have : g.world.heap.alive x = true := by simpa [Heap.alive, Heap.setData, upd_ne _ _ ex] using hx
          rw [← I.val x this]
          simp [Heap.setData, upd_ne _ _ ex]
    case borrowMut m b =>
      subst hw
      simp only [World.exec] at e
      split at e
      · cases e
        exact ⟨R', I.holds, I.excl, I.val, I.refs, I.muts⟩
      · cases e
        refine ⟨R', ?_, ?_, I.val, I.refs, ?_⟩
        · intro x hx
          by_cases ex : x = n
          · subst ex; exact hal
          · refine hg x ?_
            simpa [GWorld.Guarded, upd_ne _ _ ex] using hx
        · intro x hx
          by_cases ex : x = n
          · subst ex
            cases b with
            | false => exact upd_same _ _ _
            | true =>
              have := hs x rfl
              simp only at hx
              omega
          · simp only [upd_ne _ _ ex]; exact I.excl x hx
        · intro x
          simp only [refMutAlive, upd_apply]
          split
          · rfl
          · exact I.muts x
  · have hw : ∀ n, ¬ Writes op n := fun n hn => hw ⟨n, hn⟩
    cases hm : madeBy op with
    | none =>
      have K := exec_keep hm hw e
      have hmut : ∀ x, w'.heap.mutB x = g.world.heap.mutB x := by
        intro x
        rcases K.data x with ⟨-, b⟩ | ⟨a, b⟩
        · exact b
        · cases hx : g.world.heap.mutB x with
          | false => exact b
          | true =>
            have := hga x (.inr hx)
            simp [Heap.alive, a] at this
      refine ⟨R', ?_, ?_, ?_, fun x => I.refs x, ?_⟩
      · intro x hx
        refine hg x ?_
        rcases hx with hx | hx
        · exact .inl hx
        · exact .inr (by rw [← hmut]; exact hx)
      · intro x hx
        show w'.heap.mutB x = false
        rw [hmut]; exact I.excl x hx
      · intro x hx
        simp only [lastStored, stored_call hm hw]
        rcases K.data x with ⟨a, -⟩ | ⟨a, -⟩
        · show w'.heap.data x = _
          rw [a]
          refine I.val x ?_
          have hx : w'.heap.alive x = true := hx
          rwa [Heap.alive, a] at hx
        · have hx : w'.heap.alive x = true := hx
          simp [Heap.alive, a] at hx
      · intro x
        rw [refMut_call hw]
        show w'.heap.mutB x = _
        rw [hmut]; exact I.muts x
    | some d =>
      obtain ⟨M, hM⟩ := exec_made O hal hm e
      have hold : g.world.heap.mutB g.world.heap.nNode = false := by
        cases hx : g.world.heap.mutB g.world.heap.nNode with
        | false => rfl
        | true =>
          have := holds_alive I.reach (I.holds _ (.inr hx))
          exact absurd (O.base.bound _ this) (Nat.lt_irrefl _)
      have hmut : ∀ x, w'.heap.mutB x = g.world.heap.mutB x := by
        intro x
        by_cases ex : x = g.world.heap.nNode
        · subst ex; rw [M.new.2, hold]
        rcases M.data x ex with ⟨-, b⟩ | ⟨a, b⟩
        · exact b
        · cases hx : g.world.heap.mutB x with
          | false => exact b
          | true =>
            have := hga x (.inr hx)
            simp [Heap.alive, a] at this
      refine ⟨R', ?_, ?_, ?_, fun x => I.refs x, ?_⟩
      · intro x hx
        refine hg x ?_
        rcases hx with hx | hx
        · exact .inl hx
        · exact .inr (by rw [← hmut]; exact hx)
      · intro x hx
        show w'.heap.mutB x = false
        rw [hmut]; exact I.excl x hx
      · intro x hx
        have hx : w'.heap.alive x = true := hx
        show w'.heap.data x = _
        by_cases ex : x = g.world.heap.nNode
        · subst ex
          rcases hM with rfl | ⟨-, a⟩
          · simp only [lastStored, stored_made hm, if_true]
            rcases M.new.1 with a | a
            · exact a
            · simp [Heap.alive, a] at hx
          · simp [Heap.alive, a] at hx
        · have hst : Stored (.call op) (.call r) x = none := by
            rcases hM with rfl | ⟨⟨er, rfl⟩, -⟩
            · rw [stored_made hm, if_neg ex]
            · exact stored_err x
          simp only [lastStored, hst]
          rcases M.data x ex with ⟨a, -⟩ | ⟨a, -⟩
          · rw [a]
            refine I.val x ?_
            rwa [Heap.alive, a] at hx
          · simp [Heap.alive, a] at hx
      · intro x
        rw [refMut_call hw]
        show w'.heap.mutB x = _
        rw [hmut]; exact I.muts x

/-- The value written through a `RefMut` could also be written by other calls. -/
private theorem set_reach {w : World α} (R : ReachAny w) (hm : w.heap.mutB n = true) (hh : w.Holds n) :
    ReachAny { w with heap := w.heap.setData n d } := by
  have s1 : w.Call (.borrowMut n false) { w with heap := { w.heap with mutB := upd w.heap.mutB n false } } .unit :=
    ⟨hh, rfl⟩
  have s2 : World.Call { w with heap := { w.heap with mutB := upd w.heap.mutB n false } } (.write n d)
      { w with heap := Heap.setData { w.heap with mutB := upd w.heap.mutB n false } n d } .unit :=
    ⟨hh, by simp [World.exec]⟩
  have s3 : World.Call { w with heap := Heap.setData { w.heap with mutB := upd w.heap.mutB n false } n d }
      (.borrowMut n true) { w with heap := w.heap.setData n d } .unit := by
    refine ⟨hh, ?_⟩
    have : upd (upd w.heap.mutB n false) n true = w.heap.mutB := by
      funext x
      by_cases ex : x = n
      · subst ex; simp [hm]
      · simp [upd_ne _ _ ex]
    simp [World.exec, Heap.setData, this]
  exact ((R.step s1).step s2).step s3

private theorem GInv.step (I : GInv past g) (s : g.Call op g' r) : GInv ((op, r) :: past) g' := by
  have e := s.run
  cases op with
  | call op =>
    simp only [GWorld.exec] at e
    split at e
    · rename_i m hm
      split at e
      · rename_i hsh
        cases e
        cases op <;> simp only [GWorld.needsMut, reduceCtorEq] at hm
        · exact ⟨I.reach, I.holds, I.excl, I.val, I.refs, I.muts⟩
        · exact ⟨I.reach, I.holds, I.excl, I.val, I.refs, I.muts⟩
      · rename_i hsh
        simp only [bind, Except.bind, pure, Except.pure] at e
        split at e
        · cases e
        · rename_i v hv
          cases e
          refine I.call s.allowed ?_ hv s.guards
          intro x hx
          rw [hm] at hx; cases hx
          omega
    · rename_i hm
      simp only [bind, Except.bind, pure, Except.pure] at e
      split at e
      · cases e
      · rename_i v hv
        cases e
        refine I.call s.allowed ?_ hv s.guards
        intro x hx
        rw [hm] at hx; cases hx
  | borrow n =>
    simp only [GWorld.exec] at e
    split at e
    · cases e
      exact ⟨I.reach, I.holds, I.excl, I.val, I.refs, I.muts⟩
    · rename_i hmut
      split at e
      · cases e
      · cases e
        refine ⟨I.reach, ?_, ?_, I.val, ?_, I.muts⟩
        · intro x hx
          by_cases ex : x = n
          · subst ex; exact s.allowed
          · refine I.holds x ?_
            simpa [GWorld.Guarded, upd_ne _ _ ex] using hx
        · intro x hx
          by_cases ex : x = n
          · subst ex; simpa using hmut
          · simp only [upd_ne _ _ ex] at hx; exact I.excl x hx
        · intro x
          simp only [refsAlive, upd_apply]
          split
          · rename_i ex; rw [I.refs, ex]
          · exact I.refs x
  | unborrow n =>
    cases e
    refine ⟨I.reach, ?_, ?_, I.val, ?_, I.muts⟩
    · intro x hx
      refine I.holds x ?_
      rcases hx with hx | hx
      · left
        simp only [upd_apply] at hx
        split at hx
        · rename_i ex; subst ex; omega
        · exact hx
      · exact .inr hx
    · intro x hx
      refine I.excl x ?_
      simp only [upd_apply] at hx
      split at hx
      · rename_i ex; subst ex; omega
      · exact hx
    · intro x
      simp only [refsAlive, upd_apply]
      split
      · rename_i ex; rw [I.refs, ex]
      · exact I.refs x
  | get n =>
    simp only [GWorld.exec] at e
    split at e
    · cases e
    · cases e
      exact ⟨I.reach, I.holds, I.excl, I.val, I.refs, I.muts⟩
  | set n d =>
    have hm : g.world.heap.mutB n = true := s.allowed
    simp only [GWorld.exec] at e
    split at e
    · cases e
    · cases e
      refine ⟨set_reach I.reach hm (I.holds n (.inr hm)), fun x hx => I.holds x hx, I.excl, ?_, I.refs, I.muts⟩
      intro x hx
      simp only [lastStored, Stored]
      by_cases ex : x = n
      · subst ex; simp [Heap.setData]
      · simp only [ex, if_false]
        have : g.world.heap.alive x = true := by simpa [Heap.alive, Heap.setData, upd_ne _ _ ex] using hx
        rw [← I.val x this]
        simp [Heap.setData, upd_ne _ _ ex]

private theorem GRun.inv (R : GRun past g) : GInv past g := by
  induction R with
  | init =>
    refine ⟨.init, ?_, ?_, ?_, fun _ => rfl, fun _ => rfl⟩
    · rintro n (h | h)
      · exact absurd h (Nat.lt_irrefl 0)
      · cases h
    · intro n h; exact absurd h (Nat.lt_irrefl 0)
    · intro n h; cases h
  | step _ s ih => exact ih.step s

/-- C58, values: after any history of calls, the data of a living node is the value stored in it last:
the one it was created with or the one written last, whatever handle was used and however the node has
been moved, detached or replaced since. -/
theorem C58_last_value (R : GRun past g) (ha : g.world.heap.alive n = true) :
    g.world.heap.data n = lastStored past n :=
  R.inv.val n ha

/-- C58, guards: the state keeps track of exactly the guards that are alive; a node has a `RefMut` or
`Ref`s but not both; it is alive and reading through the guard gives the last value. -/
theorem C58_guards (R : GRun past g) (n : NodeId) :
    (0 < refsAlive past n → refMutAlive past n = false) ∧
    (0 < refsAlive past n ∨ refMutAlive past n = true →
      ∃ d, lastStored past n = some d ∧ g.exec (.get n) = .ok (g, .value d)) := by
  have I := R.inv
  refine ⟨fun h => ?_, fun h => ?_⟩
  · rw [← I.muts]; exact I.excl n (by rw [I.refs]; exact h)
  · have hg : g.Guarded n := by
      rcases h with h | h
      · exact .inl (by rw [I.refs]; exact h)
      · exact .inr (by rw [I.muts]; exact h)
    have ha := holds_alive I.reach (I.holds n hg)
    obtain ⟨d, hd⟩ := Option.isSome_iff_exists.1 ha
    exact ⟨d, by rw [← I.val n ha, hd], by simp [GWorld.exec, hd]⟩

/-- C58, `try_borrow_data`: with a handle to the node it succeeds exactly if no `RefMut` of the node is
alive, and then shows the last value. -/
theorem C58_borrow (R : GRun past g) (hh : g.world.Holds n) :
    (refMutAlive past n = true → g.exec (.borrow n) = .ok (g, .denied)) ∧
    (refMutAlive past n = false → ∃ d g', lastStored past n = some d ∧
      g.exec (.borrow n) = .ok (g', .value d) ∧ g'.world = g.world) := by
  have I := R.inv
  have ha := holds_alive I.reach hh
  obtain ⟨d, hd⟩ := Option.isSome_iff_exists.1 ha
  refine ⟨fun h => ?_, fun h => ?_⟩
  · rw [← I.muts] at h
    simp [GWorld.exec, h]
  · rw [← I.muts] at h
    exact ⟨d, { g with shared := upd g.shared n (g.shared n + 1) }, by rw [← I.val n ha, hd],
      by simp [GWorld.exec, h, hd], rfl⟩

/-- C58, `try_borrow_data_mut`: with a handle to the node it succeeds exactly if neither a `RefMut` nor a
`Ref` of the node is alive; otherwise nothing changes. -/
theorem C58_borrow_mut (R : GRun past g) (d : α) :
    (refMutAlive past n = true ∨ 0 < refsAlive past n →
      g.exec (.call (.write n d)) = .ok (g, .call .borrowed) ∧
      g.exec (.call (.borrowMut n true)) = .ok (g, .call .borrowed)) ∧
    (refMutAlive past n = false → refsAlive past n = 0 →
      (∃ g', g.exec (.call (.write n d)) = .ok (g', .call .unit) ∧ g'.world.heap.data n = some d ∧
        ∀ x, x ≠ n → g'.world.heap.data x = g.world.heap.data x) ∧
      ∃ g', g.exec (.call (.borrowMut n true)) = .ok (g', .call .unit) ∧
        g'.world.heap.data = g.world.heap.data) := by
  have I := R.inv
  refine ⟨fun h => ?_, fun h1 h2 => ⟨?_, ?_⟩⟩
  · by_cases hs : 0 < g.shared n
    · constructor <;> simp [GWorld.exec, GWorld.needsMut, hs]
    · have hm : g.world.heap.mutB n = true := by
        rcases h with h | h
        · rw [I.muts]; exact h
        · rw [I.refs] at hs; exact absurd h hs
      constructor <;>
        simp [GWorld.exec, GWorld.needsMut, hs, World.exec, hm, bind, Except.bind, pure, Except.pure]
  · rw [← I.muts] at h1
    have hs : ¬ 0 < g.shared n := by rw [I.refs, h2]; exact Nat.lt_irrefl 0
    refine ⟨_, by simp [GWorld.exec, GWorld.needsMut, hs, World.exec, h1, bind, Except.bind, pure, Except.pure]; rfl,
      by simp [Heap.setData], fun x hx => by simp [Heap.setData, upd_ne _ _ hx]⟩
  · rw [← I.muts] at h1
    have hs : ¬ 0 < g.shared n := by rw [I.refs, h2]; exact Nat.lt_irrefl 0
    exact ⟨{ g with world := { g.world with heap := { g.world.heap with mutB := upd g.world.heap.mutB n true } } },
      by simp [GWorld.exec, GWorld.needsMut, hs, World.exec, h1, bind, Except.bind, pure, Except.pure], rfl⟩

/-- C58, stability: while a guard of a node is alive no call destroys the node, and none changes its
data except writing through its `RefMut`. -/
theorem C58_stable (R : GRun past g) (s : g.Call op g' r)
    (hg : 0 < refsAlive past n ∨ refMutAlive past n = true) (hop : ∀ d, op ≠ .set n d) :
    g'.world.heap.alive n = true ∧ g'.world.heap.data n = g.world.heap.data n := by
  have I := R.inv
  have I' := I.step s
  have hG : g.Guarded n := by
    rcases hg with h | h
    · exact .inl (by rw [I.refs]; exact h)
    · exact .inr (by rw [I.muts]; exact h)
  have ha := holds_alive I.reach (I.holds n hG)
  have ha' := holds_alive I'.reach (s.guards n hG)
  refine ⟨ha', ?_⟩
  rw [I'.val n ha', I.val n ha]
  have hst : Stored op r n = none := by
    cases op with
    | borrow m => cases r <;> rfl
    | unborrow m => cases r <;> rfl
    | get m => cases r <;> rfl
    | set m d =>
      cases r <;> simp only [Stored]
      rw [if_neg]; rintro rfl; exact hop d rfl
    | call op =>
      have e := s.run
      by_cases hw : ∃ m d, op = .write m d
      · obtain ⟨m, d, rfl⟩ := hw
        by_cases hmn : n = m
        · subst hmn
          have h1 := ((C58_borrow_mut R (n := n) d).1 hg.symm).1
          rw [h1] at e
          cases e; rfl
        · have : ∀ r : GRes α, Stored (.call (.write m d)) r n = none := by
            intro r
            cases r with
            | call r => cases r <;> simp only [Stored, hmn, if_false]
            | _ => rfl
          exact this r
      · cases hm : madeBy op with
        | none =>
          cases r with
          | call r =>
            cases op <;> simp only [madeBy, reduceCtorEq] at hm <;> first | rfl | exact absurd ⟨_, _, rfl⟩ hw
          | _ => cases op <;> rfl
        | some d =>
          simp only [GWorld.exec] at e
          have hn : GWorld.needsMut op = none := by
            cases op <;> simp only [madeBy, reduceCtorEq] at hm <;> rfl
          rw [hn] at e
          simp only [bind, Except.bind, pure, Except.pure] at e
          split at e
          · cases e
          · rename_i v hv
            cases e
            obtain ⟨w1, r1⟩ := v
            rcases (exec_made I.reach.own s.allowed hm hv).2 with h1 | ⟨⟨er, h1⟩, -⟩
            · subst h1
              rw [stored_made hm, if_neg]
              rintro rfl
              exact Nat.lt_irrefl _ (I.reach.own.base.bound _ ha)
            · subst h1
              exact stored_err n
  simp only [lastStored, hst]

/-! ### A concrete history

```
let n0 = Node::new_tree(10);
let tree = n0.tree();
let grant = tree.grant_hierarchy_edit()?;
let n1 = n0.create_as_last_child(&grant, 11);
let r = n1.try_borrow_data()?;           // sees 11
n1.try_borrow_data_mut()                 // Err
drop(r);
*n1.try_borrow_data_mut()? = 12;
n1.try_detach_subtree(&grant)?;          // node 1 is now the root of another tree
let mut m = n1.try_borrow_data_mut()?;
*m = 13;
n1.try_borrow_data()                     // Err
```
-/

namespace DemoData

/-- The calls of the program. -/
def ops : List (GOp Nat) :=
  [.call (.newTree false 10), .call (.treeOf .plain 0), .call (.acquire true 0),
   .call (.create (.token 0) 0 11 .lastChild), .borrow 1, .call (.write 1 99), .unborrow 1,
   .call (.write 1 12), .call (.detach (.token 0) 1), .call (.borrowMut 1 true), .set 1 13, .borrow 1]

/-- Run some calls, keeping what each returns (the last call first). -/
def run : List (GOp Nat) → List (GOp Nat × GRes Nat) × GWorld Nat → List (GOp Nat × GRes Nat) × GWorld Nat
  | [], s => s
  | op :: l, (past, g) => match g.exec op with
    | .ok (g', r) => run l ((op, r) :: past, g')
    | .error _ => (past, g)

/-- The state after the first `i` calls. -/
def at_ (i : Nat) : List (GOp Nat × GRes Nat) × GWorld Nat := run (ops.take i) ([], .init)

theorem step {i j : Nat} {op : GOp Nat} {r : GRes Nat} (R : GRun (at_ i).1 (at_ i).2)
    (a : (at_ i).2.Allowed op) (e : (at_ i).2.exec op = .ok ((at_ j).2, r))
    (ej : (at_ j).1 = (op, r) :: (at_ i).1)
    (hs : ∀ k, (at_ i).2.shared (k + 2) = 0 ∧ (at_ i).2.world.heap.mutB (k + 2) = false)
    (h0 : 0 < (at_ j).2.world.held .plain 0) (h1 : (at_ i).2.Guarded 1 → 0 < (at_ j).2.world.held .plain 1) :
    GRun (at_ j).1 (at_ j).2 := by
  rw [ej]
  refine R.step ⟨a, e, fun n hg => ?_⟩
  match n, hg with
  | 0, _ => exact ⟨.plain, h0⟩
  | 1, hg => exact ⟨.plain, h1 hg⟩
  | k + 2, hg =>
    rcases hg with h | h
    · rw [(hs k).1] at h; exact absurd h (Nat.lt_irrefl 0)
    · rw [(hs k).2] at h; cases h

private theorem none1 {i : Nat} {P : Prop} (h : (at_ i).2.shared 1 = 0) (h' : (at_ i).2.world.heap.mutB 1 = false) :
    (at_ i).2.Guarded 1 → P := by
  rintro (g | g)
  · rw [h] at g; exact absurd g (Nat.lt_irrefl 0)
  · rw [h'] at g; cases g

theorem reach4 : GRun (at_ 4).1 (at_ 4).2 := by
  have r0 : GRun (at_ 0).1 (at_ 0).2 := .init
  have r1 : GRun (at_ 1).1 (at_ 1).2 :=
    step r0 (op := .call (.newTree false 10)) trivial rfl rfl (fun _ => ⟨rfl, rfl⟩) (by decide +kernel) (none1 rfl rfl)
  have r2 : GRun (at_ 2).1 (at_ 2).2 :=
    step r1 (op := .call (.treeOf .plain 0)) (show 0 < _ by decide +kernel) rfl rfl (fun _ => ⟨rfl, rfl⟩)
      (by decide +kernel) (none1 rfl rfl)
  have r3 : GRun (at_ 3).1 (at_ 3).2 :=
    step r2 (op := .call (.acquire true 0)) (show 0 < _ by decide +kernel) rfl rfl (fun _ => ⟨rfl, rfl⟩)
      (by decide +kernel) (none1 rfl rfl)
  exact step r3 (op := .call (.create (.token 0) 0 11 .lastChild)) (show _ ∧ _ by decide +kernel) rfl rfl (fun _ => ⟨rfl, rfl⟩)
      (by decide +kernel) (none1 rfl rfl)

private theorem h1_of {i : Nat} {P : Prop} (h : P) : (at_ i).2.Guarded 1 → P := fun _ => h

/-- After `try_borrow_data` of node 1. -/
theorem reach5 : GRun (at_ 5).1 (at_ 5).2 :=
  step reach4 (op := .borrow 1) ⟨.plain, by decide +kernel⟩ rfl rfl (fun _ => ⟨rfl, rfl⟩)
    (by decide +kernel) (none1 rfl rfl)

theorem reach10 : GRun (at_ 10).1 (at_ 10).2 := by
  have r6 : GRun (at_ 6).1 (at_ 6).2 :=
    step reach5 (op := .call (.write 1 99)) ⟨.plain, by decide +kernel⟩ rfl rfl (fun _ => ⟨rfl, rfl⟩)
      (by decide +kernel) (h1_of (by decide +kernel))
  have r7 : GRun (at_ 7).1 (at_ 7).2 :=
    step r6 (op := .unborrow 1) (show 0 < _ by decide +kernel) rfl rfl (fun _ => ⟨rfl, rfl⟩)
      (by decide +kernel) (h1_of (by decide +kernel))
  have r8 : GRun (at_ 8).1 (at_ 8).2 :=
    step r7 (op := .call (.write 1 12)) ⟨.plain, by decide +kernel⟩ rfl rfl (fun _ => ⟨rfl, rfl⟩)
      (by decide +kernel) (none1 rfl rfl)
  have r9 : GRun (at_ 9).1 (at_ 9).2 :=
    step r8 (op := .call (.detach (.token 0) 1)) (show _ ∧ _ by decide +kernel) rfl rfl (fun _ => ⟨rfl, rfl⟩)
      (by decide +kernel) (none1 rfl rfl)
  exact step r9 (op := .call (.borrowMut 1 true)) ⟨.plain, by decide +kernel⟩ rfl rfl (fun _ => ⟨rfl, rfl⟩)
    (by decide +kernel) (none1 rfl rfl)

/-- The whole history. -/
theorem reach12 : GRun (at_ 12).1 (at_ 12).2 := by
  have r11 : GRun (at_ 11).1 (at_ 11).2 :=
    step reach10 (op := .set 1 13) (by rfl) rfl rfl (fun _ => ⟨rfl, rfl⟩)
      (by decide +kernel) (h1_of (by decide +kernel))
  exact step r11 (op := .borrow 1) ⟨.plain, by decide +kernel⟩ rfl rfl (fun _ => ⟨rfl, rfl⟩)
    (by decide +kernel) (h1_of (by decide +kernel))

end DemoData

/-- The histories meet the hypotheses: node 1 is alive, has a `Ref` after five calls and a `RefMut` after
ten and twelve, and no guard after four. -/
example : GRun (DemoData.at_ 12).1 (DemoData.at_ 12).2 ∧
    (DemoData.at_ 12).2.world.heap.alive 1 = true ∧ (DemoData.at_ 12).2.world.Holds 1 ∧
    refMutAlive (DemoData.at_ 12).1 1 = true ∧ refsAlive (DemoData.at_ 5).1 1 = 1 ∧
    refMutAlive (DemoData.at_ 4).1 1 = false ∧ refsAlive (DemoData.at_ 4).1 1 = 0 :=
  ⟨DemoData.reach12, rfl, ⟨.plain, by decide +kernel⟩, rfl, rfl, rfl, rfl⟩

/-- What the calls return: the last call first. -/
example : (DemoData.at_ 12).1.map Prod.snd =
    [.denied, .unit, .call .unit, .call .unit, .call .unit, .unit, .call .borrowed, .value 11,
      .call (.node (some 1)), .call .unit, .call (.tree (some 0)), .call (.node (some 0))] := rfl

/-- The data before and after the exclusive write. -/
example : (DemoData.at_ 10).2.world.heap.data 1 = some 12 ∧ lastStored (DemoData.at_ 12).1 1 = some 13 ∧
    (DemoData.at_ 12).2.world.heap.data 1 = some 13 ∧ lastStored (DemoData.at_ 12).1 0 = some 10 :=
  ⟨rfl, rfl, rfl, rfl⟩

end Dendron
