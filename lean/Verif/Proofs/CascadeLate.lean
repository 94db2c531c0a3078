import Verif.Proofs.CascadeSim
import Verif.Proofs.CascadeKept

/-! `detach_subtree`, compared with the same call while there is one more `Tree` of the tree. -/

set_option linter.unusedSimpArgs false
set_option linter.unusedVariables false
set_option autoImplicit false

namespace Dendron
variable {α : Type} {h h' h1 h2 g g' : Heap α} {n x p : NodeId} {t u : TreeId} {c : Nest} {dt : Dtor α}
  {pins pins' : List NodeId} {f v : Nat}

/-! ### The number of `Tree`s does not matter for unlinking -/

section
variable {β γ : Type}

/-- The second computation does the same, with another number of `Tree`s of `t`. -/
def LowH (t : TreeId) (v : Nat) (r r' : Except Fault (Heap α)) : Prop := ∀ g, r = .ok g → r' = .ok (g.setTreeRc t v)
/-- The same for computations with a result. -/
def LowP (t : TreeId) (v : Nat) (r r' : Except Fault (Heap α × β)) : Prop :=
  ∀ g b, r = .ok (g, b) → r' = .ok (g.setTreeRc t v, b)

theorem LowH.ok : LowH t v (.ok h) (.ok (h.setTreeRc t v)) := fun _ e => by cases e; rfl
theorem LowH.err {e : Fault} {r : Except Fault (Heap α)} : LowH t v (.error e) r := fun _ e => by cases e

theorem LowH.bind {a a' : Except Fault (Heap α)} {f f' : Heap α → Except Fault (Heap α)} (A : LowH t v a a')
    (F : ∀ g, LowH t v (f g) (f' (g.setTreeRc t v))) : LowH t v (a >>= f) (a' >>= f') := by
  intro g e
  cases a with
  | error e' => cases e
  | ok b => rw [A b rfl]; exact F b g e

theorem LowH.bindV {a : Except Fault γ} {f f' : γ → Except Fault (Heap α)} (F : ∀ b, LowH t v (f b) (f' b)) :
    LowH t v (a >>= f) (a >>= f') := by
  intro g e
  cases a with
  | error e' => cases e
  | ok b => exact F b g e

theorem LowP.bind {a a' : Except Fault (Heap α)} {f f' : Heap α → Except Fault (Heap α × β)} (A : LowH t v a a')
    (F : ∀ g, LowP t v (f g) (f' (g.setTreeRc t v))) : LowP t v (a >>= f) (a' >>= f') := by
  intro g b e
  cases a with
  | error e' => cases e
  | ok b' => rw [A b' rfl]; exact F b' g b e

theorem LowP.bindV {a : Except Fault γ} {f f' : γ → Except Fault (Heap α × β)} (F : ∀ b, LowP t v (f b) (f' b)) :
    LowP t v (a >>= f) (a >>= f') := by
  intro g b e
  cases a with
  | error e' => cases e
  | ok b' => exact F b' g b e

theorem LowP.pure {b : β} : LowP t v (Pure.pure (h, b)) (Pure.pure (h.setTreeRc t v, b)) := fun _ _ e => by cases e; rfl

theorem release_low : ∀ {f : Nat} {n : NodeId} {h : Heap α},
    LowH t v (h.release f pins n) ((h.setTreeRc t v).release f pins n)
  | 0, _, _ => fun _ e => by cases e
  | f + 1, n, h => by
    intro g e
    unfold Heap.release at e ⊢
    by_cases hc : (!h.alive n || pins.contains n || h.referenced n) = true
    · rw [if_pos hc] at e
      cases e
      exact if_pos hc
    · rw [if_neg hc] at e
      refine (if_neg hc).trans ?_
      simp only at e ⊢
      have e1 : (h.setTreeRc t v).firstChild n = h.firstChild n := rfl
      have e2 : (h.setTreeRc t v).next n = h.next n := rfl
      have e3 : (h.setTreeRc t v).kill n = (h.kill n).setTreeRc t v := rfl
      rw [e1, e2, e3]
      have last : ∀ h2 : Heap α, LowH t v (match h.next n with | some c => Heap.release f pins c h2 | none => .ok h2)
          (match h.next n with | some c => Heap.release f pins c (h2.setTreeRc t v) | none => .ok (h2.setTreeRc t v)) := by
        intro h2
        cases h.next n with
        | none => exact LowH.ok
        | some c => exact release_low
      cases hf : h.firstChild n with
      | none => rw [hf] at e; exact last _ g e
      | some c =>
        rw [hf] at e
        simp only at e ⊢
        split at e
        · cases e
        · rename_i h2 eh
          rw [release_low h2 eh]
          exact last _ g e

theorem dropOpt_low {o : Option NodeId} : LowH t v (h.dropOpt pins o) ((h.setTreeRc t v).dropOpt pins o) := by
  cases o with
  | none => exact LowH.ok
  | some x => exact release_low

theorem putNext_low {m : NodeId} {o : Option NodeId} :
    LowH t v (h.putNext pins m o) ((h.setTreeRc t v).putNext pins m o) := dropOpt_low (h := h.setNext m o)

theorem putFirst_low {m : NodeId} {o : Option NodeId} :
    LowH t v (h.putFirst pins m o) ((h.setTreeRc t v).putFirst pins m o) := dropOpt_low (h := h.setFirst m o)

theorem newByUnlink_low : LowP t v (h.newByUnlink pins n) ((h.setTreeRc t v).newByUnlink pins n) := by
  unfold Heap.newByUnlink
  by_cases hr : h.isRoot n = true
  · rw [if_pos hr]
    refine fun g b e => (if_pos hr).trans ?_
    cases e; rfl
  · rw [if_neg hr]
    refine fun g b e => (if_neg hr).trans ?_
    revert g b
    refine LowP.bindV (fun prev => LowP.bindV (fun prevC => ?_))
    refine LowP.bind ?_ (fun g => LowP.bind ?_ (fun g => LowP.bind ?_ (fun g => LowP.bind ?_ (fun g =>
      LowP.bind ?_ (fun g => LowP.bind ?_ (fun g => LowP.pure))))))
    · show LowH t v (match h.parentLink n with | some p => _ | none => _) (match h.parentLink n with | some p => _ | none => _)
      cases hp : h.parentLink n with
      | none => exact LowH.ok
      | some p =>
        refine LowH.bindV (fun first => LowH.bind ?_ (fun g => ?_))
        · cases first
          · exact LowH.ok
          · have hp' : (h.setTreeRc t v).parentLink n = some p := hp
            rw [hp']
            exact putFirst_low
        · intro g' e
          split at e
          · cases e
          · rename_i hc
            refine (if_neg hc).trans ?_
            unfold Heap.numSub at e ⊢
            split at e
            · cases e
            · rename_i hc
              cases e
              exact if_neg hc
    · cases prev with
      | none => exact LowH.ok
      | some s => exact LowH.bind putNext_low (fun g => release_low)
    · show LowH t v (match h.nextLink n with | some p => _ | none => _) (match h.nextLink n with | some p => _ | none => _)
      cases h.nextLink n with
      | none => exact LowH.ok
      | some s => exact release_low (h := g.setPrev s (some prevC))
    · exact putNext_low (h := (g.setParent n none).setPrev n (some n))
    · exact release_low
    · exact dropOpt_low

end

/-! ### The loop -/

/-- Links and aliveness. -/
structure SameWalk (h g : Heap α) : Prop where
  data : g.data = h.data
  parent : g.parent = h.parent
  first : g.firstChild = h.firstChild
  next : g.next = h.next
  nNode : g.nNode = h.nNode
  treeRc : g.treeRc = h.treeRc

theorem SameWalk.evNext (S : SameWalk h g) : g.evNext = h.evNext := by
  funext e
  have ha : g.alive = h.alive := by funext x; simp [Heap.alive, S.data]
  cases e <;> simp only [Heap.evNext, Heap.firstChildLink, Heap.nextLink, Heap.parentLink, Heap.upgrade, S.first, S.next,
    S.parent, ha]

theorem setMem_walk {w : Membership} : SameWalk h (h.setMem n w) := ⟨rfl, rfl, rfl, rfl, rfl, rfl⟩

theorem SameWalk.trans (A : SameWalk h g) (B : SameWalk g g') : SameWalk h g' :=
  ⟨B.data.trans A.data, B.parent.trans A.parent, B.first.trans A.first, B.next.trans A.next, B.nNode.trans A.nNode,
    B.treeRc.trans A.treeRc⟩

theorem transfer_walk {o : Option (Heap α)} {l : Nat} {t' : TreeId}
    (e : (if l ≠ 0 then h.transferLock u t' else .ok (some h)) = .ok o) : ∀ h1, o = some h1 →
    SameWalk h h1 ∧ h1.mem = h.mem ∧ h1.root = h.root ∧
      (if l ≠ 0 then (h.setTreeRc t v).transferLock u t' else .ok (some (h.setTreeRc t v))) =
        .ok (some (h1.setTreeRc t v)) := by
  rintro h1 rfl
  split at e
  · rename_i hl
    rw [if_pos hl]
    unfold Heap.transferLock at e ⊢
    split at e
    · rename_i hg
      refine ⟨?_, ?_, ?_, (if_pos hg).trans ?_⟩ <;> (split at e <;> first | cases e | skip)
      · exact ⟨rfl, rfl, rfl, rfl, rfl, rfl⟩
      · rfl
      · rfl
      · rename_i g1 ea
        show (match Lock.acquireGrant (h.grants t') with | .error e => _ | .ok none => _ | .ok (some g) => _) = _
        rw [ea]; rfl
    · rename_i hg
      split at e
      · rename_i hg0
        cases e
        exact ⟨⟨rfl, rfl, rfl, rfl, rfl, rfl⟩, rfl, rfl, (if_neg hg).trans (if_pos hg0)⟩
      · rename_i hg0
        refine ⟨?_, ?_, ?_, (if_neg hg).trans ((if_neg hg0).trans ?_)⟩ <;> (split at e <;> first | cases e | skip)
        · exact ⟨rfl, rfl, rfl, rfl, rfl, rfl⟩
        · rfl
        · rfl
        · rename_i g1 ea
          show (match Lock.acquireProhibition (h.grants t') with | .error e => _ | .ok none => _ | .ok (some g) => _) = _
          rw [ea]; rfl
  · rename_i hl
    rw [if_neg hl]
    cases e
    exact ⟨⟨rfl, rfl, rfl, rfl, rfl, rfl⟩, rfl, rfl, rfl⟩

/-- One step of the loop while there is one more `Tree`: memberships and lock counts change, nothing else. -/
theorem setTreeCore_walk {t' : TreeId} (e : h.setTreeCore pins n t' = .ok (some h1)) (L : Lives h h1) :
    SameWalk h h1 ∧ (∀ x, x ≠ n → h1.mem x = h.mem x) ∧ (h.mem n).moveTo t' = h1.mem n := by
  unfold Heap.setTreeCore at e
  split at e
  · rename_i hm
    cases e
    refine ⟨setMem_walk, fun x hx => by simp [Heap.setMem, upd_ne _ _ hx], by simp [Heap.setMem, hm, Membership.moveTo]⟩
  · rename_i u rc l hm
    split at e
    · cases e
    · cases e
    · rename_i g1 e1
      simp only at e
      split at e
      · cases e
      · rename_i h3 e3
        cases e
        obtain ⟨a1, a2, a3, -⟩ := transfer_walk (t := 0) (v := 0) e1 _ rfl
        have aa : ∀ x, g1.alive x = h.alive x := fun x => by simp [Heap.alive, a1.data]
        have at' : ∀ x, g1.treeAlive x = h.treeAlive x := fun x => by simp [Heap.treeAlive, a3]
        obtain ⟨rfl, -⟩ := maybeDropTree_kept (dt := fun _ _ h => .ok h) (c := Nest.start) (pins' := []) e3
          (L.pre (fun x => aa x) (fun u => at' u))
        refine ⟨a1.trans setMem_walk, fun x hx => ?_, ?_⟩
        · simp [Heap.setMem, upd_ne _ _ hx, a2]
        · simp [Heap.setMem, hm, Membership.moveTo]

/-- The same step without it; `y` keeps the old tree. -/
theorem setTreeCore_low {t' : TreeId} {y : NodeId} {rc' l' : Nat} (e : h.setTreeCore pins n t' = .ok (some h1))
    (L : Lives h h1) (ht : h.memTree n = some t) (hy : h.mem y = .strong t rc' l') (hyn : y ≠ n) (hyb : y < h.nNode) :
    (h.setTreeRc t v).setTreeCoreC dt Nest.start pins' n t' = .ok (some (h1.setTreeRc t v)) := by
  unfold Heap.setTreeCore at e
  unfold Heap.setTreeCoreC
  rw [if_neg (by simp [Nest.start])]
  show (match h.mem n with | .weak _ => _ | .strong t rc l => _) = _
  split at e
  · rename_i hm
    simp only [hm]
    cases e; rfl
  · rename_i u rc l hm
    simp only [hm]
    obtain rfl : u = t := by simpa [Heap.memTree, hm] using ht
    split at e
    · cases e
    · cases e
    · rename_i g1 e1
      simp only at e
      split at e
      · cases e
      · rename_i h3 e3
        cases e
        obtain ⟨a1, a2, a3, a4⟩ := transfer_walk (t := u) (v := v) e1 _ rfl
        rw [a4]
        simp only
        have aa : ∀ x, g1.alive x = h.alive x := fun x => by simp [Heap.alive, a1.data]
        have at' : ∀ x, g1.treeAlive x = h.treeAlive x := fun x => by simp [Heap.treeAlive, a3]
        obtain ⟨rfl, -⟩ := maybeDropTree_kept (dt := fun _ _ h => .ok h) (c := Nest.start) (pins' := []) e3
          (L.pre (fun x => aa x) (fun u => at' u))
        have hs : ((g1.setTreeRc u v).setMem n (.strong t' rc l)).hasStrongMember u = true := by
          refine hasStrongMember_iff.2 ⟨y, ?_, rc', l', ?_⟩
          · show y < g1.nNode
            rw [a1.nNode]; exact hyb
          · show (upd g1.mem n _) y = _
            rw [upd_ne _ _ hyn, a2]; exact hy
        have : ((g1.setTreeRc u v).setMem n (.strong t' rc l)).maybeDropTreeC dt { Nest.start with busy := [n] } pins' u
            = .ok ((g1.setTreeRc u v).setMem n (.strong t' rc l)) := by
          unfold Heap.maybeDropTreeC
          rw [if_neg (by simp [hs])]
        rw [show n :: Nest.start.busy = [n] from rfl, this]
        rfl

/-- The step that takes the last strong membership away. -/
theorem setTreeCore_last {t' : TreeId} {rc l : Nat} (e : h.setTreeCore pins n t' = .ok (some h1)) (L : Lives h h1)
    (hm : h.mem n = .strong t rc l) :
    (h.setTreeRc t v).setTreeCoreC dt Nest.start pins' n t' =
      (match (h1.setTreeRc t v).maybeDropTreeC dt { Nest.start with busy := [n] } pins' t with
        | .error e => .error e
        | .ok h3 => .ok (some h3)) := by
  unfold Heap.setTreeCore at e
  unfold Heap.setTreeCoreC
  rw [if_neg (by simp [Nest.start])]
  show (match h.mem n with | .weak _ => _ | .strong t rc l => _) = _
  simp only [hm] at e ⊢
  split at e
  · cases e
  · cases e
  · rename_i g1 e1
    split at e
    · cases e
    · rename_i h3 e3
      cases e
      obtain ⟨a1, a2, a3, a4⟩ := transfer_walk (t := t) (v := v) e1 _ rfl
      rw [a4]
      simp only
      have aa : ∀ x, g1.alive x = h.alive x := fun x => by simp [Heap.alive, a1.data]
      have at' : ∀ x, g1.treeAlive x = h.treeAlive x := fun x => by simp [Heap.treeAlive, a3]
      obtain ⟨rfl, -⟩ := maybeDropTree_kept (dt := fun _ _ h => .ok h) (c := Nest.start) (pins' := []) e3
        (L.pre (fun x => aa x) (fun u => at' u))
      rfl

theorem release_skip (e : h.release f pins n = .ok h1) (L : Lives h h1) :
    h1 = h ∧ (!h.alive n || pins.contains n || h.referenced n) = true := by
  obtain ⟨rfl, -⟩ := release_kept (dt := fun _ _ h => .ok h) (c := Nest.start) e L
  refine ⟨rfl, ?_⟩
  cases f with
  | zero => cases e
  | succ f =>
    apply Decidable.byContradiction
    intro hc
    simp only [Bool.or_eq_true, not_or, Bool.not_eq_true', Bool.not_eq_true, Bool.not_eq_false] at hc
    have h2 := release_gone (f := f + 1) (by
      intro hp; have := hc.1.2; rw [List.contains_iff_mem.2 hp] at this; cases this) hc.2 e
    have := hc.1.1
    rw [h2] at this; cases this

theorem releaseC_skip {f : Nat} (hc : (!h.alive n || pins.contains n || h.referenced n) = true) :
    h.releaseC dt c (f + 1) pins n = .ok h := by
  unfold Heap.releaseC
  rw [if_pos hc]

end Dendron
