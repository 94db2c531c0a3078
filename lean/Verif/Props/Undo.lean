import Verif.Proofs.Undo
import Verif.Proofs.DemoWide
import Verif.Props.Local

/-!
# C70: calls that undo each other

`Shows w a` ties the memory to an abstract state of C62: the nodes with their data and ordered children, the trees,
the locks, and the handles and tokens the program holds.  When calls are undone the same abstract state comes back;
only the names of the next node and the next tree differ if nodes or trees have been made (`Forest.renew`).
-/

set_option autoImplicit false

namespace Dendron
variable {α : Type} {w w1 w2 : World α} {a : Forest α} {op op' : Op α} {r r1 r2 : Res} {n p x : NodeId} {d : α}
  {au au' : Auth} {as : AdoptAs} {l1 l2 : List NodeId} {dest dest' : InsertAs NodeId} {k : Kind}

/-- C70: dropping the handle, tree or token that a call has returned (by cloning, navigating, upgrading, locking,
borrowing, or making a tree) takes the call back. -/
theorem C70_handles (hr : ReachW w) (S : Shows w a) (R : w.Spare) (s : w.StepW op w1 r) (h : a.Undo op r op') :
    ∃ w2, w1.StepW op' w2 .unit ∧ Shows w2 (a.renew w1.heap.nNode w1.heap.nTree) :=
  hr.undo S R s h

/-- C70: a node bundled with a grant or a prohibition is turned into the plain node it was. -/
theorem C70_bundle (hr : ReachW w) (S : Shows w a) (R : w.Spare) (s : w.StepW op w1 .unit)
    (ho : op = .bundle k n ∨ ∃ t, op = .bundleWith k n t) :
    ∃ w2 w3, w1.StepW (.plainOf k n) w2 .unit ∧ w2.StepW (.drop k n) w3 .unit ∧ Shows w3 a :=
  hr.unbundle S R s ho

/-- C70: a node that has just been created as a child or a sibling is detached and dropped. -/
theorem C70_create_detach (hr : ReachW w) (S : Shows w a) (R : w.Spare)
    (s : w.StepW (.create au n d as) w1 (.node (some x))) :
    ∃ w2 w3, w1.StepW (.detach au x) w2 .unit ∧ w2.StepW (.drop au.kind x) w3 .unit ∧
      Shows w3 (a.renew (a.newNode + 1) (a.newTree + 1)) :=
  hr.create_detach S R s

/-- C70: a node that has just been put between a node and its parent is replaced by its child and dropped. -/
theorem C70_parent_replace (hr : ReachW w) (S : Shows w a) (R : w.Spare)
    (s : w.StepW (.createParent au n d) w1 (.node (some x))) :
    ∃ w2 w3, w1.StepW (.replace au x) w2 .unit ∧ w2.StepW (.drop au.kind x) w3 .unit ∧
      Shows w3 (a.renew (a.newNode + 1) (a.newTree + 1)) :=
  hr.parent_replace S R s

/-- C70: a node that has just been put between a node and its children is replaced by its children and dropped,
provided `last_child` of the node was right (C13-C15). -/
theorem C70_child_replace (hr : ReachW w) (S : Shows w a) (R : w.Spare)
    (s : w.StepW (.createChild au n d) w1 (.node (some x))) (hl : LastRight w.heap a.children n) :
    ∃ w2 w3, w1.StepW (.replace au x) w2 .unit ∧ w2.StepW (.drop au.kind x) w3 .unit ∧
      Shows w3 (a.renew (a.newNode + 1) (a.newTree + 1)) :=
  hr.child_replace S R s hl

/-- C70: a subtree is moved away, into the same tree or another one, and moved back to the place it had (beside the
node it was beside of, or to the end it was at). -/
theorem C70_move_back (hr : ReachW w) (S : Shows w a) (hp : a.children p = l1 ++ n :: l2)
    (s1 : w.StepW (.move au n dest) w1 r1) (hd : DestSplit (fun q => (a.children q).erase n) dest' p l1 l2)
    (s2 : w1.StepW (.move au' n dest') w2 r2) : Shows w2 a :=
  hr.move_back S hp s1 hd s2

/-! ### Concrete cases -/

/-- `C70_handles`: the parent of a node is asked for and dropped; a third tree is made and dropped. -/
example : ∃ a w1 w2, Shows (DemoWorld.at_ 8) a ∧
    (DemoWorld.at_ 8).StepW (.nav .plain .parent 2) w1 (.node (some 0)) ∧
    a.Undo (.nav .plain .parent 2) (.node (some 0)) (.drop .plain 0) ∧ w1.StepW (.drop .plain 0) w2 .unit ∧
    Shows w2 a := by
  have hr := DemoWorld.reach8.toW
  obtain ⟨ch, I⟩ := DemoWorld.reach8.inv
  obtain ⟨a, S⟩ := Shows.exists hr
  have s1 : ∃ w1, (DemoWorld.at_ 8).StepW (.nav .plain .parent 2) w1 (.node (some 0)) ∧ w1.heap.nNode = 5 ∧
      w1.heap.nTree = 2 :=
    ⟨_, World.Step.toW ⟨show 0 < (DemoWorld.at_ 8).held .plain 2 by decide, fun _ _ => trivial,
      DemoWorld.room 8 (by decide), rfl⟩ I, rfl, rfl⟩
  obtain ⟨w1, s1, e1, e2⟩ := s1
  obtain ⟨w2, s2, S2⟩ := C70_handles hr S DemoLocal.spare s1 (.nav .plain .parent 2 0)
  rw [e1, e2] at S2
  have h1 : a.newNode = 5 := S.newNode
  have h2 : a.newTree = 2 := S.newTree
  have : a.renew 5 2 = a := by rw [← h1, ← h2]; rfl
  rw [this] at S2
  exact ⟨a, w1, w2, S, s1, .nav .plain .parent 2 0, s2, S2⟩

example : ∃ a w1 w2, Shows (DemoWorld.at_ 8) a ∧ (DemoWorld.at_ 8).StepW (.newTree true 30) w1 (.node (some 5)) ∧
    w1.StepW (.drop .hot 5) w2 .unit ∧ Shows w2 (a.renew 6 3) := by
  have hr := DemoWorld.reach8.toW
  obtain ⟨ch, I⟩ := DemoWorld.reach8.inv
  obtain ⟨a, S⟩ := Shows.exists hr
  have s1 : ∃ w1, (DemoWorld.at_ 8).StepW (.newTree true 30) w1 (.node (some 5)) ∧ w1.heap.nNode = 6 ∧
      w1.heap.nTree = 3 :=
    ⟨_, World.Step.toW ⟨trivial, fun _ _ => trivial, DemoWorld.room 8 (by decide), rfl⟩ I, rfl, rfl⟩
  obtain ⟨w1, s1, e1, e2⟩ := s1
  obtain ⟨w2, s2, S2⟩ := C70_handles hr S DemoLocal.spare s1 (.newTree true 30 5)
  rw [e1, e2] at S2
  exact ⟨a, w1, w2, S, s1, s2, S2⟩

/-- `C70_bundle`: node 2 is bundled with the grant of tree 0. -/
example : ∃ a w1 w2 w3, Shows (DemoWorld.at_ 8) a ∧ (DemoWorld.at_ 8).StepW (.bundleWith .hot 2 0) w1 .unit ∧
    w1.StepW (.plainOf .hot 2) w2 .unit ∧ w2.StepW (.drop .hot 2) w3 .unit ∧ Shows w3 a := by
  have hr := DemoWorld.reach8.toW
  obtain ⟨ch, I⟩ := DemoWorld.reach8.inv
  obtain ⟨a, S⟩ := Shows.exists hr
  have s1 : ∃ w1, (DemoWorld.at_ 8).StepW (.bundleWith .hot 2 0) w1 .unit :=
    ⟨_, World.Step.toW ⟨⟨by decide, .inl ⟨rfl, by decide⟩⟩, fun _ _ => trivial,
      DemoWorld.room 8 (by decide), rfl⟩ I⟩
  obtain ⟨w1, s1⟩ := s1
  obtain ⟨w2, w3, s2, s3, S3⟩ := C70_bundle hr S DemoLocal.spare s1 (.inr ⟨0, rfl⟩)
  exact ⟨a, w1, w2, w3, S, s1, s2, s3, S3⟩

/-- `C70_create_detach`: node 4 gets a child, which is removed again. -/
example : ∃ a w1 w2 w3, Shows (DemoWorld.at_ 8) a ∧
    (DemoWorld.at_ 8).StepW (.create .hot 4 21 .lastChild) w1 (.node (some 5)) ∧
    w1.StepW (.detach .hot 5) w2 .unit ∧ w2.StepW (.drop .hot 5) w3 .unit ∧ Shows w3 (a.renew 6 3) := by
  have hr := DemoWorld.reach8.toW
  obtain ⟨a, S⟩ := Shows.exists hr
  obtain ⟨w1, s1⟩ := DemoLocal.createStep
  obtain ⟨w2, w3, s2, s3, S3⟩ := C70_create_detach hr S DemoLocal.spare s1
  have h1 : a.newNode = 5 := S.newNode
  have h2 : a.newTree = 2 := S.newTree
  rw [h1, h2] at S3
  exact ⟨a, w1, w2, w3, S, s1, s2, s3, S3⟩

/-- `C70_parent_replace`: a node is put between node 1 and its parent 0, and removed again. -/
example : ∃ a w1 w2 w3, Shows (DemoWorld.at_ 8) a ∧
    (DemoWorld.at_ 8).StepW (.createParent .hot 1 21) w1 (.node (some 5)) ∧ w1.heap.parentLink 1 = some 5 ∧
    w1.StepW (.replace .hot 5) w2 .unit ∧ w2.StepW (.drop .hot 5) w3 .unit ∧ Shows w3 (a.renew 6 3) := by
  have hr := DemoWorld.reach8.toW
  obtain ⟨ch, I⟩ := DemoWorld.reach8.inv
  obtain ⟨a, S⟩ := Shows.exists hr
  have s1 : ∃ w1, (DemoWorld.at_ 8).StepW (.createParent .hot 1 21) w1 (.node (some 5)) ∧
      w1.heap.parentLink 1 = some 5 :=
    ⟨_, World.Step.toW ⟨show 0 < (DemoWorld.at_ 8).held .hot 1 by decide, fun _ _ => trivial,
      DemoWorld.room 8 (by decide), rfl⟩ I, rfl⟩
  obtain ⟨w1, s1, e⟩ := s1
  obtain ⟨w2, w3, s2, s3, S3⟩ := C70_parent_replace hr S DemoLocal.spare s1
  have h1 : a.newNode = 5 := S.newNode
  have h2 : a.newTree = 2 := S.newTree
  rw [h1, h2] at S3
  exact ⟨a, w1, w2, w3, S, s1, e, s2, s3, S3⟩

/-- `C70_child_replace`: a node is put between node 1 and its child 3, and removed again. -/
example : ∃ a w1 w2 w3, Shows (DemoWorld.at_ 8) a ∧ LastRight (DemoWorld.at_ 8).heap a.children 1 ∧
    (DemoWorld.at_ 8).StepW (.createChild .hot 1 21) w1 (.node (some 5)) ∧ w1.heap.parentLink 3 = some 5 ∧
    w1.StepW (.replace .hot 5) w2 .unit ∧ w2.StepW (.drop .hot 5) w3 .unit ∧ Shows w3 (a.renew 6 3) := by
  have hr := DemoWorld.reach8.toW
  obtain ⟨ch, I⟩ := DemoWorld.reach8.inv
  obtain ⟨a, S⟩ := Shows.exists hr
  have hl : LastRight (DemoWorld.at_ 8).heap a.children 1 := by
    obtain rfl := S.children.unique I.wf.toFShape
    exact .of_inv I rfl
  have s1 : ∃ w1, (DemoWorld.at_ 8).StepW (.createChild .hot 1 21) w1 (.node (some 5)) ∧
      w1.heap.parentLink 3 = some 5 :=
    ⟨_, World.Step.toW ⟨show 0 < (DemoWorld.at_ 8).held .hot 1 by decide, fun _ _ => trivial,
      DemoWorld.room 8 (by decide), rfl⟩ I, rfl⟩
  obtain ⟨w1, s1, e⟩ := s1
  obtain ⟨w2, w3, s2, s3, S3⟩ := C70_child_replace hr S DemoLocal.spare s1 hl
  have h1 : a.newNode = 5 := S.newNode
  have h2 : a.newTree = 2 := S.newTree
  rw [h1, h2] at S3
  exact ⟨a, w1, w2, w3, S, hl, s1, e, s2, s3, S3⟩

namespace DemoUndo

/-- A root with three children; the first one has moved below the third one. -/
def moved : World Nat := DemoWorld.run [.move .hot 1 (.lastChildOf 3)] (DemoWorld.wide 4)

theorem away : (DemoWorld.wide 4).Step (.move .hot 1 (.lastChildOf 3)) moved .unit := by
  refine ⟨⟨show 0 < (DemoWorld.wide 4).held .hot 1 by decide, by decide⟩, fun ch F => ?_,
    DemoWorld.wideRoom 4 (by decide), rfl⟩
  refine .inr (.inl ⟨⟨0, (F.mem 0 1).2 ⟨rfl, rfl⟩⟩, ?_, ?_, by simp [InsertAs.isSibling]⟩)
  · rintro ⟨p, l, a, e⟩
    have := F.next_at (p := p) (n := 1) (l1 := l ++ [a]) (l2 := []) (by rw [e]; simp)
    have h3 : (DemoWorld.wide 4).heap.next 1 = some 2 := rfl
    rw [h3] at this; simp at this
  · intro hd
    have hd : Desc ch 1 3 := hd
    cases hd with
    | @step m _ h2 h3 =>
      have := F.parent_of_mem h3
      have h4 : (DemoWorld.wide 4).heap.parent 3 = some 0 := rfl
      rw [h4] at this
      obtain rfl : 0 = m := by simpa using this
      cases h2 with
      | step h5 h6 =>
        have := F.parent_of_mem h6
        have h4 : (DemoWorld.wide 4).heap.parent 0 = none := rfl
        rw [h4] at this; cases this

theorem room : Room moved.heap := by
  refine DemoWorld.room_of 1 (fun t ht => ?_) (by decide +kernel)
  obtain ⟨s, rfl⟩ : ∃ s, t = s + 1 := ⟨t - 1, (Nat.sub_add_cancel ht).symm⟩
  rfl

theorem back : ∃ w2, moved.Step (.move .hot 1 (.previousSiblingOf 2)) w2 .unit := by
  refine ⟨_, ⟨show 0 < moved.held .hot 1 by decide +kernel, by decide +kernel⟩, fun ch F => ?_, room, rfl⟩
  have h2 : (2 : NodeId) ∈ ch 0 := (F.mem 0 2).2 ⟨rfl, rfl⟩
  have h1 : (1 : NodeId) ∈ ch 3 := (F.mem 3 1).2 ⟨rfl, rfl⟩
  refine .inr (.inl ⟨⟨3, h1⟩, ?_, ?_, fun _ => ⟨0, h2⟩⟩)
  · rintro ⟨p, l, a, e⟩
    have := F.parent_of_mem (p := p) (c := 1) (by rw [e]; simp)
    have h4 : moved.heap.parent 1 = some 3 := rfl
    rw [h4] at this
    obtain rfl : 3 = p := by simpa using this
    have h5 := F.first 3 rfl
    have h6 : moved.heap.firstChild 3 = some 1 := rfl
    have h7 := F.nodup 3
    rw [h6, e] at h5
    rw [e] at h7
    cases l with
    | nil =>
      obtain rfl : 1 = a := by simpa using h5
      simp at h7
    | cons b l =>
      obtain rfl : 1 = b := by simpa using h5
      simp at h7
  · intro hd
    have hd : Desc ch 1 2 := hd
    cases hd with
    | @step m _ g2 g3 =>
      have := F.parent_of_mem g3
      have h4 : moved.heap.parent 2 = some 0 := rfl
      rw [h4] at this
      obtain rfl : 0 = m := by simpa using this
      cases g2 with
      | step h5 h6 =>
        have := F.parent_of_mem h6
        have h4 : moved.heap.parent 0 = none := rfl
        rw [h4] at this; cases this

end DemoUndo

/-- `C70_move_back`: the first of three children moves below the third one and back. -/
example : ∃ a w2, ReachW (DemoWorld.wide 4) ∧ Shows (DemoWorld.wide 4) a ∧ a.children 0 = [] ++ 1 :: [2, 3] ∧
    (DemoWorld.wide 4).StepW (.move .hot 1 (.lastChildOf 3)) DemoUndo.moved .unit ∧
    DemoUndo.moved.heap.parentLink 1 = some 3 ∧
    DestSplit (fun q => (a.children q).erase 1) (.previousSiblingOf 2) 0 [] [2, 3] ∧
    DemoUndo.moved.StepW (.move .hot 1 (.previousSiblingOf 2)) w2 .unit ∧ Shows w2 a := by
  have hr := DemoWorld.wideReach4
  obtain ⟨ch, I⟩ := hr.inv
  obtain ⟨ch', I'⟩ := (Reach.step hr DemoUndo.away).inv
  obtain ⟨a, S⟩ := Shows.exists hr.toW
  obtain ⟨w2, s2⟩ := DemoUndo.back
  have F := S.children
  have e : a.children 0 = [1, 2, 3] := by
    have h0 := F.first 0 rfl
    rw [show (DemoWorld.wide 4).heap.firstChild 0 = some 1 from rfl] at h0
    obtain ⟨l, e1⟩ := List.head?_eq_some_iff.1 h0.symm
    have h1 := F.next_at (p := 0) (n := 1) (l1 := []) (l2 := l) e1
    rw [show (DemoWorld.wide 4).heap.next 1 = some 2 from rfl] at h1
    obtain ⟨l, rfl⟩ := List.head?_eq_some_iff.1 h1.symm
    have h2 := F.next_at (p := 0) (n := 2) (l1 := [1]) (l2 := l) e1
    rw [show (DemoWorld.wide 4).heap.next 2 = some 3 from rfl] at h2
    obtain ⟨l, rfl⟩ := List.head?_eq_some_iff.1 h2.symm
    have h3 := F.next_at (p := 0) (n := 3) (l1 := [1, 2]) (l2 := l) e1
    rw [show (DemoWorld.wide 4).heap.next 3 = none from rfl] at h3
    obtain rfl := List.head?_eq_none_iff.1 h3.symm
    exact e1
  have hd : DestSplit (fun q => (a.children q).erase 1) (.previousSiblingOf 2) 0 [] [2, 3] :=
    .prev (by rw [e]; rfl)
  exact ⟨a, w2, hr.toW, S, e, DemoUndo.away.toW I, rfl, hd, s2.toW I',
    C70_move_back hr.toW S e (DemoUndo.away.toW I) hd (s2.toW I')⟩

end Dendron
