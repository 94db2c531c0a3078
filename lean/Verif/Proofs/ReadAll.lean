import Verif.Proofs.Reads

/-! Calls that are no edits and free nothing change nothing but counts; the counts are determined by
the values the program holds. -/

set_option linter.unusedSimpArgs false
set_option linter.unusedVariables false

set_option autoImplicit false

namespace Dendron
variable {α : Type} {h h' h'' : Heap α} {w w' : World α} {ch : NodeId → List NodeId} {n m : NodeId}
  {t t' : TreeId} {k : Kind} {op : Op α} {r : Res}

/-- Only reference counts, and lock counts of living trees, differ. -/
structure Touch (h h' : Heap α) : Prop where
  still : Still h h'
  grants : ∀ t, h.treeAlive t = false → h'.grants t = h.grants t
  up : ∀ n t rc l, h'.mem n = .strong t rc l → h'.treeAlive t = true

def Up (h : Heap α) : Prop := ∀ n t rc l, h.mem n = .strong t rc l → h.treeAlive t = true

theorem Touch.refl (u : Up h) : Touch h h := ⟨Still.refl h, fun _ _ => rfl, u⟩

theorem Touch.trans (a : Touch h h') (b : Touch h' h'') : Touch h h'' :=
  ⟨a.still.trans b.still, fun t ht => (b.grants t ((a.still.treeAlive t).trans ht)).trans (a.grants t ht), b.up⟩

theorem still_setMem {m : Membership} (e : (h.setMem n m).memTree n = h.memTree n) :
    Still h (h.setMem n m) := by
  constructor
  case memTree =>
    intro x
    by_cases hx : x = n
    · rw [hx]; exact e
    · simp [Heap.memTree, Heap.setMem, hx]
  all_goals rfl

theorem touch_setMem {rc l : Nat} (u : Up h) (ht : h.memTree n = some t) (hta : h.treeAlive t = true) :
    Touch h (h.setMem n (.strong t rc l)) := by
  refine ⟨still_setMem (by rw [ht]; simp [Heap.memTree, Heap.setMem]), fun _ _ => rfl, ?_⟩
  intro x v a b hx
  simp only [Heap.setMem, upd_apply] at hx
  show h.treeAlive v = true
  split at hx
  · simp only [Membership.strong.injEq] at hx; rw [← hx.1]; exact hta
  · exact u _ _ _ _ hx

theorem touch_setGrants {g : Int} (u : Up h) (hta : h.treeAlive t = true) : Touch h (h.setGrants t g) := by
  refine ⟨⟨rfl, rfl, rfl, rfl, rfl, rfl, rfl, fun _ => rfl, rfl, rfl, rfl⟩, ?_, u⟩
  intro v hv
  have : v ≠ t := by rintro rfl; rw [hta] at hv; cases hv
  simp [Heap.setGrants, this]

theorem touch_setTreeRc {g : Nat} (u : Up h) : Touch h (h.setTreeRc t g) :=
  ⟨⟨rfl, rfl, rfl, rfl, rfl, rfl, rfl, fun _ => rfl, rfl, rfl, rfl⟩, fun _ _ => rfl, u⟩

theorem touch_decLock (u : Up h) (e : h.decLock n = .ok h') : Touch h h' := by
  unfold Heap.decLock at e
  cases hm : h.mem n with
  | weak o => simp [hm] at e
  | strong t rc l =>
    simp only [hm] at e
    have hta := u _ _ _ _ hm
    have T : ∀ l', Touch h (h.setMem n (.strong t rc l')) := fun l' => touch_setMem u (memTree_strong hm) hta
    split at e
    · cases e
    · split at e
      · split at e
        · cases e
        · simp only [Except.ok.injEq] at e; subst e
          exact (T _).trans (touch_setGrants (T _).up hta)
      · simp only [Except.ok.injEq] at e; subst e; exact T _

theorem touch_incLock (u : Up h) (e : h.incLockNonzero n = .ok h') : Touch h h' := by
  unfold Heap.incLockNonzero at e
  cases hm : h.mem n with
  | weak o => simp [hm] at e
  | strong t rc l =>
    simp only [hm] at e
    split at e
    · cases e
    · simp only [Except.ok.injEq] at e; subst e
      exact touch_setMem u (memTree_strong hm) (u _ _ _ _ hm)

theorem touch_cloneLink (u : Up h) (e : h.cloneLink n = .ok h') : Touch h h' := by
  unfold Heap.cloneLink at e
  cases hm : h.mem n with
  | weak o => simp [hm] at e
  | strong t rc l =>
    simp only [hm, Except.ok.injEq] at e; subst e
    exact touch_setMem u (memTree_strong hm) (u _ _ _ _ hm)

theorem touch_withNodeCore (u : Up h) (e : h.withNodeCore n = .ok h') : Touch h h' := by
  unfold Heap.withNodeCore Heap.incRef at e
  cases hm : h.mem n with
  | strong t rc l =>
    simp only [hm, Except.ok.injEq] at e; subst e
    exact touch_setMem u (memTree_strong hm) (u _ _ _ _ hm)
  | weak o =>
    simp only [hm] at e
    cases hf : o.filter h.treeAlive with
    | none => simp [hf] at e
    | some t =>
      simp only [hf, Except.ok.injEq] at e
      subst e
      obtain ⟨ho, hta⟩ := Option.filter_eq_some_iff.1 hf
      subst ho
      exact touch_setMem u (by simp [Heap.memTree, hm]) hta

theorem touch_acqLock (u : Up h) (e : h.acqLock n k = .ok (some h')) : Touch h h' := by
  cases k with
  | plain =>
    simp only [Heap.acqLock, Except.ok.injEq, Option.some.injEq] at e
    subst e; exact Touch.refl u
  | hot =>
    simp only [Heap.acqLock, Heap.acquireEditGrant] at e
    cases hm : h.mem n with
    | weak o => simp [hm] at e
    | strong t rc l =>
      have hta := u _ _ _ _ hm
      simp only [hm] at e
      split at e
      · simp at e
      · split at e
        · simp only [Except.ok.injEq, Option.some.injEq] at e; subst e
          exact touch_setMem u (memTree_strong hm) hta
        · split at e
          · cases e
          · cases e
          · simp only [Except.ok.injEq, Option.some.injEq] at e; subst e
            have T := touch_setGrants (t := t) (g := ‹Int›) u hta
            exact T.trans (touch_setMem T.up (memTree_strong hm) hta)
  | frozen =>
    simp only [Heap.acqLock, Heap.acquireEditProhibition] at e
    cases hm : h.mem n with
    | weak o => simp [hm] at e
    | strong t rc l =>
      have hta := u _ _ _ _ hm
      simp only [hm] at e
      split at e
      · simp at e
      · split at e
        · simp only [Except.ok.injEq, Option.some.injEq] at e; subst e
          exact touch_setMem u (memTree_strong hm) hta
        · split at e
          · cases e
          · cases e
          · simp only [Except.ok.injEq, Option.some.injEq] at e; subst e
            have T := touch_setGrants (t := t) (g := ‹Int›) u hta
            exact T.trans (touch_setMem T.up (memTree_strong hm) hta)

theorem touch_wrap (u : Up h) (e : h.wrap n k = .ok h') : Touch h h' := by
  simp only [Heap.wrap, bind, Except.bind] at e
  split at e
  · cases e
  · rename_i g hg
    have T := touch_withNodeCore u hg
    exact T.trans (touch_acqLock T.up (expectLock_ok e))

theorem touch_cloneHandle (u : Up h) (e : h.cloneHandle n k = .ok h') : Touch h h' := by
  have main : (do let h ← h.incLockNonzero n; h.cloneLink n : Except Fault (Heap α)) = .ok h' → Touch h h' := by
    intro e
    simp only [bind, Except.bind] at e
    split at e
    · cases e
    · rename_i g hg
      have T := touch_incLock u hg
      exact T.trans (touch_cloneLink T.up e)
  cases k with
  | plain => exact touch_cloneLink u e
  | hot => exact main e
  | frozen => exact main e

/-- Some tree has been destroyed. -/
def Lost (h h' : Heap α) : Prop := ∃ t, h.treeAlive t = true ∧ h'.treeAlive t = false

theorem Inv.up (I : Inv w ch) : Up w.heap := fun n t rc l hm =>
  I.wf.tree_alive (I.wf.refs.alive _ _ _ _ hm) (memTree_strong hm)

theorem Inv.dropPlain_touch (I : Inv w ch) (hk : 0 < w.held .plain n) (e : w.heap.dropLink n = .ok h') :
    Touch w.heap h' ∨ Lost w.heap h' := by
  obtain ⟨t, rc, l, hm, ha, hta⟩ := I.tree_of_held hk
  obtain ⟨e1, e2⟩ := I.strong _ _ _ _ hm
  by_cases hkeep : 1 < rc ∨ 0 < w.heap.treeRc t ∨ ∃ x rc' l, x ≠ n ∧ w.heap.mem x = .strong t rc' l
  · obtain ⟨hd, hW⟩ := dropLink_keep I.wf hm (by omega) hkeep
    rw [hd] at e
    simp only [Except.ok.injEq] at e; subst e
    left
    refine ⟨still_setMem ?_, fun _ _ => rfl, ?_⟩
    · simp only [Heap.memTree, Heap.setMem, upd_same, hm, Membership.dec]
      by_cases e : rc = 1 <;> simp [e]
    · intro x v a b hx
      show w.heap.treeAlive v = true
      simp only [Heap.setMem, upd_apply, hm, Membership.dec] at hx
      split at hx
      · split at hx
        · cases hx
        · simp only [Membership.strong.injEq] at hx; rw [← hx.1]; exact hta
      · exact I.up _ _ _ _ hx
  · simp only [not_or, not_exists, not_and] at hkeep
    obtain ⟨h1, h2, h3⟩ := hkeep
    have hrc1 : rc = 1 := by omega
    have hl0 : l = 0 := by omega
    subst hrc1 hl0
    obtain ⟨r, R, hr, hR, -⟩ := I.wf.tree_nodes hta
    obtain ⟨hd, -⟩ := dropLink_last I.wf hm (by omega) h3 hr hR
    rw [hd] at e
    simp only [Except.ok.injEq] at e; subst e
    right
    exact ⟨t, hta, by simp [Heap.treeAlive, dropped_root]⟩

theorem Inv.dropHandle_touch (I : Inv w ch) (hk : 0 < w.held k n) (e : w.heap.dropHandle n k = .ok h') :
    Touch w.heap h' ∨ Lost w.heap h' := by
  have main : k ≠ .plain → (do let h ← w.heap.decLock n; h.dropLink n : Except Fault (Heap α)) = .ok h' →
      Touch w.heap h' ∨ Lost w.heap h' := by
    intro hkp e
    obtain ⟨h1, e1, I1, S1⟩ := I.unbundle hk hkp
    simp only [e1, bind, Except.bind] at e
    have T := touch_decLock I.up e1
    rcases I1.dropPlain_touch (n := n) (by simp) e with h2 | ⟨t, h2, h3⟩
    · exact .inl (T.trans h2)
    · exact .inr ⟨t, by rw [← S1.treeAlive]; exact h2, h3⟩
  cases k with
  | plain => exact I.dropPlain_touch hk e
  | hot => exact main (by decide) e
  | frozen => exact main (by decide) e

theorem Inv.relTree_touch (I : Inv w ch) (ht : 0 < w.trees t) (e : w.heap.relTree [] t = .ok h') :
    Touch w.heap h' ∨ Lost w.heap h' := by
  have hta := I.treesAlive t ht
  have hrc := I.treeRc t
  by_cases hk : 1 < w.heap.treeRc t ∨ ∃ x rc l, w.heap.mem x = .strong t rc l
  · obtain ⟨e', W⟩ := relTree_keep I.wf hk
    rw [e'] at e
    simp only [Except.ok.injEq] at e; subst e
    exact .inl (touch_setTreeRc I.up)
  · simp only [not_or, not_exists] at hk
    obtain ⟨h1, h2⟩ := hk
    obtain ⟨r, R, hr, hR, hRn⟩ := I.wf.tree_nodes hta
    obtain ⟨e', W⟩ := relTree_last I.wf (by omega) h2 hr hR
    rw [e'] at e
    simp only [Except.ok.injEq] at e; subst e
    right
    exact ⟨t, hta, by simp [Heap.treeAlive, dropped_root]⟩

theorem touch_acquire {b : Bool} (u : Up w.heap) (hta : w.heap.treeAlive t = true)
    (e : w.execAcquire b t = .ok (w', r)) : Touch w.heap w'.heap := by
  unfold World.execAcquire at e
  split at e
  · cases e
  · simp only [Except.ok.injEq, Prod.mk.injEq] at e
    obtain ⟨rfl, -⟩ := e; exact .refl u
  · simp only [Except.ok.injEq, Prod.mk.injEq] at e
    obtain ⟨rfl, -⟩ := e
    have T := touch_setGrants (g := ‹Int›) u hta
    cases b <;> exact T

theorem Inv.read_touch (I : Inv w ch) (ha : w.Allowed op) (hop : op.isRead)
    (e : w.exec op = .ok (w', r)) : Touch w.heap w'.heap ∨ Lost w.heap w'.heap := by
  have u := I.up
  cases op with
  | newTree hot d => exact absurd hop id
  | create | createParent | createChild | detach | replace | move | write | borrowMut => exact absurd hop id
  | clone k n =>
    simp only [World.exec, bind, Except.bind, pure, Except.pure] at e
    split at e
    · cases e
    · rename_i g hg
      simp only [Except.ok.injEq, Prod.mk.injEq] at e
      obtain ⟨rfl, -⟩ := e
      exact .inl (touch_cloneHandle u hg)
  | drop k n =>
    simp only [World.exec, bind, Except.bind, pure, Except.pure] at e
    split at e
    · cases e
    · rename_i g hg
      simp only [Except.ok.injEq, Prod.mk.injEq] at e
      obtain ⟨rfl, -⟩ := e
      exact I.dropHandle_touch ha hg
  | nav k q n =>
    simp only [World.exec, bind, Except.bind, pure, Except.pure] at e
    split at e
    · cases e
    · split at e
      · simp only [Except.ok.injEq, Prod.mk.injEq] at e
        obtain ⟨rfl, -⟩ := e
        exact .inl (.refl u)
      · split at e
        · cases e
        · rename_i g hg
          simp only [Except.ok.injEq, Prod.mk.injEq] at e
          obtain ⟨rfl, -⟩ := e
          exact .inl (touch_wrap u hg)
  | upgrade n =>
    simp only [World.exec, bind, Except.bind, pure, Except.pure] at e
    split at e
    · simp only [Except.ok.injEq, Prod.mk.injEq] at e
      obtain ⟨rfl, -⟩ := e
      exact .inl (.refl u)
    · split at e
      · cases e
      · rename_i g hg
        simp only [Except.ok.injEq, Prod.mk.injEq] at e
        obtain ⟨rfl, -⟩ := e
        exact .inl (touch_wrap u hg)
  | plainOf k n =>
    simp only [World.exec, bind, Except.bind, pure, Except.pure] at e
    split at e
    · cases e
    · rename_i g hg
      simp only [Except.ok.injEq, Prod.mk.injEq] at e
      obtain ⟨rfl, -⟩ := e
      exact .inl (touch_cloneLink u hg)
  | bundle k n =>
    simp only [World.exec, bind, Except.bind, pure, Except.pure] at e
    split at e
    · cases e
    · split at e
      · rename_i g hg
        simp only [Except.ok.injEq, Prod.mk.injEq] at e
        obtain ⟨rfl, -⟩ := e
        exact .inl (touch_acqLock u hg)
      · split at e
        · cases e
        · rename_i g hg
          simp only [Except.ok.injEq, Prod.mk.injEq] at e
          obtain ⟨rfl, -⟩ := e
          exact I.dropPlain_touch ha.2 hg
  | bundleWith k n t =>
    simp only [World.exec, bind, Except.bind, pure, Except.pure] at e
    split at e
    · split at e
      · cases e
      · rename_i g hg
        simp only [Except.ok.injEq, Prod.mk.injEq] at e
        obtain ⟨rfl, -⟩ := e
        exact .inl (touch_acqLock u (expectLock_ok hg))
    · cases e
  | treeOf k n =>
    simp only [World.exec, bind, Except.bind, pure, Except.pure] at e
    split at e
    · cases e
    · simp only [Except.ok.injEq, Prod.mk.injEq] at e
      obtain ⟨rfl, -⟩ := e
      exact .inl (touch_setTreeRc u)
  | cloneTree t =>
    simp only [World.exec, Except.ok.injEq, Prod.mk.injEq] at e
    obtain ⟨rfl, -⟩ := e
    exact .inl (touch_setTreeRc u)
  | dropTree t =>
    simp only [World.exec, bind, Except.bind, pure, Except.pure] at e
    split at e
    · cases e
    · rename_i g hg
      simp only [Except.ok.injEq, Prod.mk.injEq] at e
      obtain ⟨rfl, -⟩ := e
      exact I.relTree_touch ha hg
  | treeRoot t =>
    simp only [World.exec, bind, Except.bind, pure, Except.pure] at e
    split at e
    · cases e
    · split at e
      · cases e
      · rename_i g hg
        simp only [Except.ok.injEq, Prod.mk.injEq] at e
        obtain ⟨rfl, -⟩ := e
        exact .inl (touch_wrap u hg)
  | upgradeTree t =>
    simp only [World.exec] at e
    split at e
    · simp only [Except.ok.injEq, Prod.mk.injEq] at e
      obtain ⟨rfl, -⟩ := e
      exact .inl (touch_setTreeRc u)
    · simp only [Except.ok.injEq, Prod.mk.injEq] at e
      obtain ⟨rfl, -⟩ := e
      exact .inl (.refl u)
  | acquire b t => exact .inl (touch_acquire u (I.treesAlive t ha) e)
  | cloneTok b t =>
    simp only [World.exec] at e
    split at e
    · rename_i hta; exact .inl (touch_acquire u hta e)
    · simp only [Except.ok.injEq, Prod.mk.injEq] at e
      obtain ⟨rfl, -⟩ := e
      cases b <;> exact .inl (.refl u)
  | dropTok b t =>
    simp only [World.exec] at e
    split at e
    · rename_i hta
      simp only [bind, Except.bind, pure, Except.pure] at e
      split at e
      · cases e
      · simp only [Except.ok.injEq, Prod.mk.injEq] at e
        obtain ⟨rfl, -⟩ := e
        have T := touch_setGrants (g := ‹Int›) u hta
        cases b <;> exact .inl T
    · simp only [Except.ok.injEq, Prod.mk.injEq] at e
      obtain ⟨rfl, -⟩ := e
      cases b <;> exact .inl (.refl u)
  | extract b n =>
    simp only [World.exec, bind, Except.bind, pure, Except.pure] at e
    split at e
    · cases e
    · rename_i t ht
      split at e
      · cases e
      · split at e
        · cases e
        · rename_i hd x hx
          simp only [Except.ok.injEq] at e
          subst e
          have hk : ∃ k, 0 < w.held k n := by
            simp only [World.Allowed] at ha
            cases b <;> exact ⟨_, ha⟩
          obtain ⟨k, hk⟩ := hk
          exact .inl (touch_acquire u (I.wf.tree_alive (I.held_alive hk) ((I.nodeTree_held hk).1 ht)) hd)

/-- The counts are determined by what the program holds. -/
theorem Inv.heap_eq {ch' : NodeId → List NodeId} (I : Inv w ch) (I' : Inv w' ch')
    (T : Touch w.heap w'.heap) (e1 : w'.held = w.held) (e2 : w'.trees = w.trees)
    (e3 : w'.grantTok = w.grantTok) (e4 : w'.prohTok = w.prohTok) : w' = w := by
  have hmem : w'.heap.mem = w.heap.mem := by
    funext x
    have ht := T.still.memTree x
    have h1 : ∀ k, w'.held k x = w.held k x := fun k => by rw [e1]
    cases hm : w.heap.mem x with
    | weak o =>
      have hz := I.weak _ _ hm
      cases hm' : w'.heap.mem x with
      | weak o' => simp only [Heap.memTree, hm, hm'] at ht; rw [ht]
      | strong t' rc' l' =>
        have h2 := I'.strong _ _ _ _ hm'
        have h3 := I'.wf.refs.pos _ _ _ _ hm'
        rw [h1, h1, h1, hz, hz, hz] at h2
        omega
    | strong t rc l =>
      have h2 := I.strong _ _ _ _ hm
      have h3 := I.wf.refs.pos _ _ _ _ hm
      cases hm' : w'.heap.mem x with
      | weak o' =>
        have hz := I'.weak _ _ hm'
        have a := hz .plain
        have b := hz .hot
        have c := hz .frozen
        rw [h1] at a b c
        omega
      | strong t' rc' l' =>
        have h2' := I'.strong _ _ _ _ hm'
        rw [h1, h1, h1] at h2'
        have : t' = t := by simpa [Heap.memTree, hm, hm'] using ht
        rw [this, h2.1, h2.2, h2'.1, h2'.2]
  have hrc : w'.heap.treeRc = w.heap.treeRc := by
    funext t; rw [I.treeRc, I'.treeRc, e2]
  have hgr : w'.heap.grants = w.heap.grants := by
    funext t
    cases hta : w.heap.treeAlive t with
    | false => exact T.grants t hta
    | true =>
      obtain ⟨L, hL, hmL, hmode, -⟩ := I.locks t hta
      obtain ⟨L', hL', hmL', hmode', -⟩ := I'.locks t ((T.still.treeAlive t).trans hta)
      have hlen : L.length = L'.length := by
        refine (List.Perm.length_eq ?_)
        rw [List.perm_ext_iff_of_nodup hL hL']
        intro x
        rw [hmL, hmL', T.still.memTree, e1]
      have key : ∀ x ∈ L, w.heap.memTree x = some t ∧ 0 < w.held .hot x + w.held .frozen x := fun x hx => (hmL x).1 hx
      rcases hmode with ⟨a, b, c⟩ | ⟨a, b, c⟩ <;> rcases hmode' with ⟨a', b', c'⟩ | ⟨a', b', c'⟩
      · rw [c, c', e3, hlen]
      · have hz : L.length = 0 := by
          by_cases h0 : 0 < L.length
          · obtain ⟨x, hx⟩ := List.exists_mem_of_length_pos h0
            obtain ⟨k1, k2⟩ := key x hx
            have i1 := b x k1
            have i2 := b' x ((T.still.memTree x).trans k1)
            rw [e1] at i2
            omega
          · omega
        rw [c, c', e4, ← hlen, hz, a]
        rw [e3] at a'; rw [a']; rfl
      · have hz : L.length = 0 := by
          by_cases h0 : 0 < L.length
          · obtain ⟨x, hx⟩ := List.exists_mem_of_length_pos h0
            obtain ⟨k1, k2⟩ := key x hx
            have i1 := b x k1
            have i2 := b' x ((T.still.memTree x).trans k1)
            rw [e1] at i2
            omega
          · omega
        rw [c, c', e3, ← hlen, hz, a]
        rw [e4] at a'; rw [a']; rfl
      · rw [c, c', e4, hlen]
  obtain ⟨hp, hd, tr, gt, pt⟩ := w
  obtain ⟨hp', hd', tr', gt', pt'⟩ := w'
  simp only at e1 e2 e3 e4
  subst e1 e2 e3 e4
  congr 1
  obtain ⟨a1, a2, a3, a4, a5, a6, a7, a8, a9, a10, a11⟩ := T.still
  cases hp; cases hp'
  simp only at hmem hrc hgr a1 a2 a3 a4 a5 a6 a7 a8 a9 a10 a11
  subst hmem hrc hgr a1 a2 a3 a4 a5 a6 a7 a9 a10 a11
  rfl

theorem Op.isRead.not_edits (h : Heap α) (hop : op.isRead) (t : TreeId) : ¬ Edits h op t := by
  cases op <;> first | exact absurd hop id | exact id

structure ReadsOK (w w' : World α) : Prop where
  nodes : w.heap.nNode ≤ w'.heap.nNode
  trees : w.heap.nTree ≤ w'.heap.nTree
  back : ∀ n, n < w.heap.nNode → w'.heap.alive n = true → w.heap.alive n = true
  memTree : ∀ n, w.heap.alive n = true → w'.heap.alive n = true → w'.heap.memTree n = w.heap.memTree n
  touch : Touch w.heap w'.heap ∨ Lost w.heap w'.heap

theorem Reads.ok (hr : Reach w) (rd : Reads w w') : Reach w' ∧ ReadsOK w w' := by
  induction rd with
  | refl =>
    obtain ⟨ch, I⟩ := hr.inv
    exact ⟨hr, Nat.le_refl _, Nat.le_refl _, fun _ _ h => h, fun _ _ _ => rfl, .inl (.refl I.up)⟩
  | @step u v op r _ hop s ih =>
    obtain ⟨hu, R⟩ := ih
    obtain ⟨ch, I⟩ := hr.inv
    obtain ⟨ch1, I1⟩ := hu.inv
    obtain ⟨ch2, I2, K⟩ := s.inv I1
    have hb : ∀ n, n < w.heap.nNode → v.heap.alive n = true → u.heap.alive n = true := by
      intro n hn ha
      cases e : u.heap.alive n with
      | true => rfl
      | false =>
        have := K.fresh n (Nat.lt_of_lt_of_le hn R.nodes) e
        rw [ha] at this; cases this
    refine ⟨.step hu s, Nat.le_trans R.nodes K.nodes, Nat.le_trans R.trees K.trees, ?_, ?_, ?_⟩
    · intro n hn ha; exact R.back n hn (hb n hn ha)
    · intro n ha ha2
      have ha1 := hb n (I.wf.bound n ha) ha2
      obtain ⟨t, ht, -⟩ := I1.wf.tree.live n ha1
      rw [(K.stay n t ha1 ht (hop.not_edits _ t) ha2).1, ← R.memTree n ha ha1, ht]
    · rcases R.touch with T | ⟨t, h1, h2⟩
      · rcases I1.read_touch s.allowed hop s.run with T2 | ⟨t, h1, h2⟩
        · exact .inl (T.trans T2)
        · exact .inr ⟨t, by rw [← T.still.treeAlive]; exact h1, h2⟩
      · refine .inr ⟨t, h1, K.freshTree t (Nat.lt_of_lt_of_le (I.wf.tree.bound t h1) R.trees) h2⟩

/-- Reading leaves no trace. -/
theorem Reads.eq (hr : Reach w) (rd : Reads w w') (e1 : w'.held = w.held) (e2 : w'.trees = w.trees)
    (e3 : w'.grantTok = w.grantTok) (e4 : w'.prohTok = w.prohTok) : w' = w := by
  obtain ⟨hr', R⟩ := rd.ok hr
  obtain ⟨ch, I⟩ := hr.inv
  obtain ⟨ch', I'⟩ := hr'.inv
  rcases R.touch with T | ⟨t, h1, h2⟩
  · exact I.heap_eq I' T e1 e2 e3 e4
  · exfalso
    have : w'.heap.treeAlive t = true := by
      rcases I.treeHeld_iff.2 h1 with h3 | ⟨k, n, hk, hn⟩
      · rw [← e2] at h3; exact I'.treesAlive t h3
      · have ha := I.held_alive hk
        have hk' : 0 < w'.held k n := by rw [e1]; exact hk
        have ha' := I'.held_alive hk'
        exact I'.wf.tree_alive ha' ((R.memTree n ha ha').trans ((I.nodeTree_held hk).1 hn))
    rw [h2] at this; cases this

/-- What reading leaves alone in any case. -/
theorem Reads.keeps (hr : Reach w) (rd : Reads w w') (ha : w.heap.alive n = true)
    (ha' : w'.heap.alive n = true) :
    w'.heap.data n = w.heap.data n ∧ w'.heap.nodeTree n = w.heap.nodeTree n ∧
      ∀ q, w'.heap.navTo n q = w.heap.navTo n q := by
  induction rd with
  | refl => exact ⟨rfl, rfl, fun _ => rfl⟩
  | @step u v op r rd hop s ih =>
    obtain ⟨hu, R⟩ := rd.ok hr
    obtain ⟨ch, I⟩ := hr.inv
    obtain ⟨ch1, I1⟩ := hu.inv
    obtain ⟨ch2, I2, K⟩ := s.inv I1
    have ha1 : u.heap.alive n = true := by
      cases e : u.heap.alive n with
      | true => rfl
      | false =>
        have := K.fresh n (Nat.lt_of_lt_of_le (I.wf.bound n ha) R.nodes) e
        rw [ha'] at this; cases this
    obtain ⟨i1, i2, i3⟩ := ih ha1
    obtain ⟨t, ht, -⟩ := I1.wf.tree.live n ha1
    obtain ⟨k1, -, -, k2⟩ := K.navTo I1.wf I2.wf (hop.not_edits _ t) ha1 ht ha'
    refine ⟨?_, ?_, ?_⟩
    · rw [← i1]
      refine K.data n ha1 ha' ?_
      intro hx
      cases op <;> first | exact absurd hop id | exact hx
    · rw [← i2]
      show v.heap.treeCore n = u.heap.treeCore n
      rw [(I1.wf.tree.treeCore_iff ha1).2 ht, (I2.wf.tree.treeCore_iff ha').2 k1]
    · intro q; rw [← i3]; exact k2 q

end Dendron
