import Verif.Proofs.WideLoops
import Verif.Spec.Steady

/-! Code that reads, run in the wider histories: in a tree whose last children are right it does what it does in a
consistent state. -/

set_option linter.unusedSimpArgs false
set_option linter.unusedVariables false

set_option autoImplicit false

namespace Dendron
open Prog
variable {α β σ ι : Type} {w w' v : World α} {ch : NodeId → List NodeId} {n p : NodeId} {t : TreeId} {a : Forest α}

theorem Wide.navTo_tree (W : Wide w v ch) (hr : ReachW w) (S : Shows w a) {q : Nav}
    (hq : ∀ p, UsesLast ch (.nav .plain q n : Op α) p → LastRight w.heap ch p) (ha : w.heap.alive n = true) {m : NodeId}
    (e : w.heap.navTo n q = .ok (some m)) :
    w.heap.alive m = true ∧ w.heap.memTree m = w.heap.memTree n := by
  have e' : v.heap.navTo n q = .ok (some m) := by rw [← W.navTo (kd := .plain) ha hq]; exact e
  have hv : v.heap.alive n = true := by rw [W.sim.heap.alive]; exact ha
  obtain ⟨o, e2, h1⟩ := W.inv.wf.navTo hv q
  rw [e'] at e2
  obtain rfl := Except.ok.inj e2
  obtain ⟨h2, h3⟩ := h1 m rfl
  rw [W.sim.heap.alive] at h2
  rw [W.sim.heap.memTree] at h3
  exact ⟨h2, h3⟩

/-- In a tree whose last children are right. -/
theorem Prog.eval_right {out : β → Handles} (hr : ReachW w) (W : Wide w v ch) (hL : TreeRight w.heap ch t)
    {p : Prog α β} : ∀ {O : Handles}, Uses out p O →
      (∀ x ∈ O, w.heap.alive x.2 = true ∧ w.heap.memTree x.2 = some t) →
      Steers w.heap ch p ∧ p.eval w.heap = p.eval v.heap := by
  obtain ⟨a, S⟩ := Shows.exists hr
  induction p with
  | ret b => intros; exact ⟨trivial, rfl⟩
  | fail e => intros; exact ⟨trivial, rfl⟩
  | nav k q n f ih =>
    intro O u hO
    obtain ⟨ha, hm⟩ := hO _ u.1
    have hL' : ∀ p, w.heap.alive p = true → w.heap.memTree p = some t → LastRight w.heap ch p :=
      fun p ha hm => hL p ha ((W.fwd.tree.treeCore_iff ha).2 hm)
    have up : ∀ p, n ∈ ch p → w.heap.alive p = true ∧ w.heap.memTree p = some t := fun p h =>
      ⟨W.shape.alive_parent h, by
        rw [← W.fwd.tree.child n p ha (W.shape.parent_of_mem h)]; exact hm⟩
    have hq : ∀ p, UsesLast ch (.nav k q n : Op α) p → LastRight w.heap ch p := by
      intro p hp
      cases q with
      | lastChild => obtain rfl : p = n := hp; exact hL' _ ha hm
      | lastSibling => exact hL' p (up p hp).1 (up p hp).2
      | prevSibling => exact hL' p (up p (List.mem_of_head? hp)).1 (up p (List.mem_of_head? hp)).2
      | _ => exact hp.elim
    have hq' : ∀ p, UsesLast ch (.nav .plain q n : Op α) p → LastRight w.heap ch p := by
      intro p hp
      refine hq p ?_
      cases q <;> exact hp
    have e : w.heap.navTo n q = v.heap.navTo n q := W.navTo (kd := k) ha hq
    have go : ∀ r, w.heap.navTo n q = .ok r → Steers w.heap ch (f r) ∧ (f r).eval w.heap = (f r).eval v.heap := by
      intro r hr'
      cases r with
      | none => exact ih none u.2.1 hO
      | some m =>
        refine ih (some m) (u.2.2 m) ?_
        intro x hx
        rcases List.mem_cons.1 hx with rfl | hx
        · obtain ⟨h1, h2⟩ := W.navTo_tree hr S hq' ha hr'
          exact ⟨h1, h2.trans hm⟩
        · exact hO x hx
    refine ⟨⟨hq, fun r hr' => (go r hr').1⟩, ?_⟩
    simp only [eval, ← e]
    cases h : w.heap.navTo n q with
    | error _ => rfl
    | ok r => exact (go r h).2
  | clone k n f ih =>
    intro O u hO
    refine ih u.2 (fun x hx => ?_)
    rcases List.mem_cons.1 hx with rfl | hx
    · exact hO _ u.1
    · exact hO x hx
  | drop k n f ih => intro O u hO; exact ih u.2 (fun x hx => hO x (List.mem_of_mem_erase hx))
  | plain k n f ih =>
    intro O u hO
    refine ih u.2.2 (fun x hx => ?_)
    rcases List.mem_cons.1 hx with rfl | hx
    · exact hO (k, n) u.2.1
    · exact hO x hx
  | data k n f ih =>
    intro O u hO
    have h1 : v.heap.data = w.heap.data := W.sim.heap.data
    have h2 : v.heap.mutB = w.heap.mutB := W.sim.heap.mutB
    simp only [eval, Steers, h1, h2]
    exact ih _ (u.2 _) hO

theorem has_oneW {k : Kind} (hk : 0 < w.held k n) : w.Has [(k, n)] := by
  intro k' m
  rw [List.count_cons, List.count_nil]
  by_cases e : (k, n) = (k', m)
  · cases e; simp; exact hk
  · simp [e]

/-- A piece of code that gives all handles back leaves everything as it was. -/
theorem Prog.run_back {q : Prog α β} {O : Handles} {b : β} (hr : ReachW w) (R : w.Roomy) (h : w.Has O)
    (F : FShape w.heap ch) (u : Uses (fun _ => O) q O) (st : Steers w.heap ch q) (e : q.eval w.heap = .ok b) :
    q.run w = .ok (w, b) := by
  obtain ⟨a, S⟩ := Shows.exists hr
  obtain rfl := F.unique S.children
  have := sound_wide hr S (S.roomy.1 R) h u st
  rw [e] at this
  obtain ⟨w', a', e', D⟩ := this
  rw [e']
  have hh : w'.held = w.held := by
    funext k' m
    have := D.exch.held k' m
    omega
  rw [D.reads.eq hr.any hh D.exch.trees D.exch.grantTok D.exch.prohTok]

/-- A loop that edits nothing, in a tree whose last children are right. -/
theorem loop_right {k k0 : Kind} {node : ι → NodeId} {owns : σ → List NodeId}
    {next : σ → Prog α (Option ι × σ)} {nx : σ → Step σ ι} {start : Prog α σ} {s : σ} {l : List ι}
    (hr : ReachW w) (R : w.Roomy) (W : Wide w v ch) (hk : 0 < w.held k0 n) (ht : w.heap.nodeTree n = .ok t)
    (hL : TreeRight w.heap ch t)
    (hu : Uses (fun s => (k0, n) :: handles k (owns s)) start [(k0, n)])
    (hn : ∀ s, Uses (fun r => handles k (r.1.toList.map node ++ owns r.2)) (next s) (handles k (owns s)))
    (es : start.eval v.heap = .ok s) (en : ∀ s, (next s).eval v.heap = nx s) (hy : Yields nx s l)
    (j : Nat) : (loopP k node owns start next j).run w = .ok (w, l.take j) := by
  have u := loopP_uses (F := [(k0, n)]) hu hn j
  obtain ⟨st, e⟩ := Prog.eval_right hr W hL u (fun x hx => by
    obtain rfl : x = (k0, n) := by simpa using hx
    exact ⟨W.held_alive hk, (W.nodeTree_held hk).1 ht⟩)
  rw [loopP_eval es en hy j] at e
  exact Prog.run_back hr R (has_oneW hk) W.shape u st e

theorem takeP_steers {h : Heap α} {k : Kind} {node : ι → NodeId} {next : σ → Prog α (Option ι × σ)}
    (hs : ∀ s, Steers h ch (next s)) : ∀ (j : Nat) (s : σ), Steers h ch (takeP k node next j s)
  | 0, s => trivial
  | j + 1, s => by
    refine .bind (hs s) fun r _ => ?_
    obtain ⟨x, s'⟩ := r
    cases x with
    | none => trivial
    | some x => exact Steers.bind (p := dropP k (node x)) trivial fun _ _ => Steers.bind (takeP_steers hs j s') fun _ _ => trivial

theorem closeCurrentP_steers {σ ν : Type} {h : Heap α} {k : Kind} {node : ν → NodeId}
    {next : σ → Prog α (Option (DftEvent ν) × σ)}
    (hs : ∀ s, Steers h ch (next s)) : ∀ (f d : Nat) (s : σ), Steers h ch (closeCurrentP k node next f d s)
  | 0, _, s => trivial
  | f + 1, d, s => by
    refine .bind (hs s) fun r _ => ?_
    obtain ⟨_ | ev, s'⟩ := r
    · trivial
    · rcases ev with v | v
      · exact Steers.bind (p := dropP k (node v)) trivial fun _ _ => closeCurrentP_steers hs f _ s'
      · simp only
        split
        · trivial
        · exact Steers.bind (p := dropP k (node v)) trivial fun _ _ => closeCurrentP_steers hs f _ s'

theorem cloneAll_steers {h : Heap α} {k : Kind} : ∀ l : List NodeId, Steers h ch (cloneAll k l : Prog α Unit)
  | [] => trivial
  | x :: l => cloneAll_steers l

theorem dropAll_steers {h : Heap α} {k : Kind} : ∀ l : List NodeId, Steers h ch (dropAll k l : Prog α Unit)
  | [] => trivial
  | x :: l => dropAll_steers l

/-- A loop that edits nothing and does not ask for last children. -/
theorem loop_forward {k k0 : Kind} {node : ι → NodeId} {owns : σ → List NodeId}
    {next : σ → Prog α (Option ι × σ)} {nx : σ → Step σ ι} {start : Prog α σ} {s : σ} {l : List ι}
    (hr : ReachW w) (R : w.Roomy) (hk : 0 < w.held k0 n) (F : FShape w.heap ch)
    (hu : Uses (fun s => (k0, n) :: handles k (owns s)) start [(k0, n)])
    (hn : ∀ s, Uses (fun r => handles k (r.1.toList.map node ++ owns r.2)) (next s) (handles k (owns s)))
    (s1 : Steers w.heap ch start) (s2 : ∀ s, Steers w.heap ch (next s))
    (es : start.eval w.heap = .ok s) (en : ∀ s, (next s).eval w.heap = nx s) (hy : Yields nx s l)
    (j : Nat) : (loopP k node owns start next j).run w = .ok (w, l.take j) :=
  Prog.run_back hr R (has_oneW hk) F (loopP_uses (F := [(k0, n)]) hu hn j)
    (.bind s1 fun s _ => .bind (takeP_steers s2 j s) fun r _ => .bind (dropAll_steers _) fun _ _ => trivial)
    (loopP_eval es en hy j)

end Dendron
