import Verif.Spec.Build
import Verif.Proofs.TryEq

/-! Trees under construction. -/

set_option linter.unusedSimpArgs false
set_option linter.unusedVariables false

set_option autoImplicit false

namespace Dendron
open RTree
variable {α β γ : Type} {h : Heap α} {ch : NodeId → List NodeId}

def stepsL (cs : List (RTree β)) : List (Option β) := (eventsL cs).map DftEvent.toStep

theorem steps_node (v : β) (cs : List (RTree β)) :
    (RTree.node v cs).steps = some v :: (stepsL cs ++ [none]) := by
  simp [RTree.steps, stepsL, events, DftEvent.toStep]

theorem stepsL_nil : stepsL ([] : List (RTree β)) = [] := rfl

theorem stepsL_cons (c : RTree β) (cs : List (RTree β)) : stepsL (c :: cs) = c.steps ++ stepsL cs := by
  simp [RTree.steps, stepsL, eventsL]

theorem stepsL_append (cs ds : List (RTree β)) : stepsL (cs ++ ds) = stepsL cs ++ stepsL ds := by
  simp [stepsL, eventsL_eq]

mutual
/-- The steps of a tree can be parsed in one way only. -/
theorem steps_cancel : ∀ (t u : RTree β) (X Y : List (Option β)),
    t.steps ++ X = u.steps ++ Y → t = u ∧ X = Y
  | .node v cs, .node w ds, X, Y, e => by
    rw [steps_node, steps_node] at e
    simp only [List.cons_append, List.append_assoc, List.nil_append, List.cons.injEq,
      Option.some.injEq] at e
    obtain ⟨rfl, e⟩ := e
    obtain ⟨rfl, rfl⟩ := stepsL_cancel cs ds X Y e
    exact ⟨rfl, rfl⟩
theorem stepsL_cancel : ∀ (cs ds : List (RTree β)) (X Y : List (Option β)),
    stepsL cs ++ none :: X = stepsL ds ++ none :: Y → cs = ds ∧ X = Y
  | [], [], X, Y, e => by simpa [stepsL_nil] using e
  | [], .node w ds' :: ds, X, Y, e => by
    rw [stepsL_cons, steps_node, stepsL_nil] at e; simp at e
  | .node v cs' :: cs, [], X, Y, e => by
    rw [stepsL_cons, steps_node, stepsL_nil] at e; simp at e
  | c :: cs, d :: ds, X, Y, e => by
    rw [stepsL_cons, stepsL_cons, List.append_assoc, List.append_assoc] at e
    obtain ⟨e1, e2⟩ := steps_cancel c d _ _ e
    obtain ⟨e3, e4⟩ := stepsL_cancel cs ds X Y e2
    exact ⟨by rw [e1, e3], e4⟩
end

theorem steps_inj {t u : RTree β} (e : t.steps = u.steps) : t = u :=
  (steps_cancel t u [] [] (by rw [e])).1

/-- A node that is still open, with its complete children so far. -/
abbrev Frame (β : Type) := β × List (RTree β)

/-- The steps made so far, for open nodes from the innermost to the outermost. -/
def enc : List (Frame β) → List (Option β)
  | [] => []
  | (x, ks) :: fs => enc fs ++ some x :: stepsL ks

/-- Close all open nodes around a tree. -/
def zipUp (t : RTree β) : List (Frame β) → RTree β
  | [] => t
  | (y, ks) :: fs => zipUp (.node y (ks ++ [t])) fs

theorem enc_zip (t : RTree β) (fs : List (Frame β)) :
    enc fs ++ t.steps ++ List.replicate fs.length none = (zipUp t fs).steps := by
  induction fs generalizing t with
  | nil => simp [enc, zipUp]
  | cons f fs ih =>
    obtain ⟨y, ks⟩ := f
    rw [zipUp, ← ih, steps_node, stepsL_append, stepsL_cons, stepsL_nil, enc]
    simp [List.replicate_succ]

theorem enc_frames (x : β) (ks : List (RTree β)) (fs : List (Frame β)) :
    enc ((x, ks) :: fs) ++ List.replicate (fs.length + 1) none = (zipUp (.node x ks) fs).steps := by
  rw [← enc_zip, steps_node, enc]
  simp [List.replicate_succ]

/-! ### Counting -/

theorem count_stepsL_some : ∀ l : List (Option β), l.countP Option.isSome + l.countP Option.isNone = l.length := by
  intro l
  induction l with
  | nil => simp
  | cons a l ih => cases a <;> simp <;> omega

mutual
theorem steps_balance : ∀ t : RTree β, t.steps.countP Option.isSome = t.steps.countP Option.isNone
  | .node v cs => by
    have := stepsL_balance cs
    rw [steps_node]; simp; omega
theorem stepsL_balance : ∀ cs : List (RTree β),
    (stepsL cs).countP Option.isSome = (stepsL cs).countP Option.isNone
  | [] => by simp [stepsL_nil]
  | c :: cs => by
    have h1 := steps_balance c
    have h2 := stepsL_balance cs
    rw [stepsL_cons]; simp; omega
end

theorem enc_balance (fs : List (Frame β)) :
    (enc fs).countP Option.isSome = (enc fs).countP Option.isNone + fs.length := by
  induction fs with
  | nil => simp [enc]
  | cons f fs ih =>
    obtain ⟨x, ks⟩ := f
    have := stepsL_balance ks
    simp [enc]; omega

/-! ### Relabeling -/

def Matches (f : γ → Option β) (X : List (Option γ)) (E : List (Option β)) : Prop :=
  X.map (Option.map f) = E.map (Option.map some)

variable {f : γ → Option β} {X X' : List (Option γ)} {E E' : List (Option β)}

theorem Matches.append (h1 : Matches f X E) (h2 : Matches f X' E') :
    Matches f (X ++ X') (E ++ E') := by
  simp only [Matches, List.map_append] at *; rw [h1, h2]

theorem Matches.nil : Matches f [] [] := rfl

theorem Matches.none (k : Nat) : Matches f (List.replicate k none) (List.replicate k none) := by
  simp [Matches]

theorem Matches.some {x : γ} {d : β} (e : f x = some d) : Matches f [some x] [some d] := by
  simp [Matches, e]

theorem Matches.nil_iff (h1 : Matches f X E) : X = [] ↔ E = [] := by
  have := congrArg List.length h1
  simp only [List.length_map] at this
  constructor
  · rintro rfl; exact List.eq_nil_of_length_eq_zero (by simpa using this.symm)
  · rintro rfl; exact List.eq_nil_of_length_eq_zero (by simpa using this)

theorem Matches.isNone (h1 : Matches f X E) :
    X.countP Option.isNone = E.countP Option.isNone := by
  have := congrArg (List.countP Option.isNone) h1
  simpa [List.countP_map, Function.comp_def] using this

theorem Matches.isSome (h1 : Matches f X E) :
    X.countP Option.isSome = E.countP Option.isSome := by
  have := congrArg (List.countP Option.isSome) h1
  simpa [List.countP_map, Function.comp_def] using this

theorem Matches.congr {g : γ → Option β} (h1 : Matches f X E)
    (he : ∀ x, Option.some x ∈ X → g x = f x) : Matches g X E := by
  rw [Matches, ← h1]
  apply List.map_congr_left
  intro a ha
  cases a with
  | none => rfl
  | some x => simp [he x ha]

mutual
theorem steps_map (g : γ → β) : ∀ t : RTree γ, (t.map g).steps = t.steps.map (Option.map g)
  | .node v cs => by
    have := stepsL_map g cs
    rw [RTree.map, steps_node, steps_node, this]; simp
theorem stepsL_map (g : γ → β) : ∀ cs : List (RTree γ), stepsL (mapL g cs) = (stepsL cs).map (Option.map g)
  | [] => by simp [mapL, stepsL_nil]
  | c :: cs => by
    have h1 := steps_map g c
    have h2 := stepsL_map g cs
    rw [mapL, stepsL_cons, stepsL_cons, h1, h2]; simp
end

theorem Matches.tree {t : RTree γ} {u : RTree β} :
    Matches f t.steps u.steps ↔ t.map f = u.map Option.some := by
  rw [Matches, ← steps_map, ← steps_map]
  exact ⟨steps_inj, fun e => by rw [e]⟩

theorem mem_steps {t : RTree β} {v : β} : some v ∈ t.steps ↔ v ∈ t.nodes := by
  rw [← mem_events_opn, RTree.steps, List.mem_map]
  constructor
  · rintro ⟨e, he, h2⟩
    cases e with
    | opn x => simp [DftEvent.toStep] at h2; rw [← h2]; exact he
    | cls x => simp [DftEvent.toStep] at h2
  · intro he; exact ⟨_, he, rfl⟩

theorem Describes.unique {k k' : Nat} {t t' : RTree β} (h1 : Describes E k t)
    (h2 : Describes E k' t') : k = k' ∧ t = t' := by
  have b1 := steps_balance t
  have b2 := steps_balance t'
  rw [← show _ = _ from h1] at b1
  rw [← show _ = _ from h2] at b2
  simp [List.countP_replicate] at b1 b2
  obtain rfl : k = k' := by omega
  exact ⟨rfl, steps_inj (h1.symm.trans h2)⟩

/-- Nothing follows a complete tree. -/
theorem Describes.complete {k : Nat} {t u : RTree β} (h1 : Describes E 0 t)
    (h2 : Describes (E ++ E') k u) : E' = [] := by
  rw [Describes, List.replicate_zero, List.append_nil] at h1
  rw [Describes, h1] at h2
  have := (steps_cancel t u (E' ++ List.replicate k none) [] (by rw [← h2]; simp)).2
  simpa using (List.append_eq_nil_iff.1 this).1

/-- More nodes are closed than are open. -/
theorem Describes.depth {k j i : Nat} {t u : RTree β} (h1 : Describes E k t)
    (h2 : Describes (E ++ List.replicate j none) i u) : j + i = k ∧ u = t := by
  have : Describes E (j + i) u := by
    rw [Describes] at h2 ⊢
    rw [← h2, List.append_assoc, List.replicate_append_replicate]
  obtain ⟨e1, e2⟩ := this.unique h1
  exact ⟨e1, e2⟩

theorem expand_append (l m : List (Event β)) :
    Event.expand (l ++ m) = Event.expand l ++ Event.expand m := by
  induction l with
  | nil => rfl
  | cons e l ih => cases e <;> simp [Event.expand, ih]

theorem not_describes_nil {k : Nat} {t : RTree β} {l : List (Option β)} : ¬ Describes (none :: l) k t := by
  intro h2
  rw [Describes] at h2
  cases t with
  | node v cs => rw [steps_node] at h2; simp at h2

end Dendron
