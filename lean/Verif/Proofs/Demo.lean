import Verif.Proofs.StrictSpec

/-! A concrete memory with two trees, used to show that hypotheses are satisfiable:

```
0 --+-- 1          6 --- 7
    +-- 2 --+-- 4
    |       +-- 5
    +-- 3
```
Every node has a handle. -/

set_option autoImplicit false

namespace Dendron.Demo

/-- run a creation, keeping the heap -/
def add (h : Heap Nat) (n : NodeId) (d : Nat) : Heap Nat :=
  match h.nodeCreate n d .lastChild with
  | .ok (h', _) => h'
  | .error _ => h

def h0 : Heap Nat := (Heap.empty.newTreeRoot 10).1
def h1 : Heap Nat := add h0 0 11
def h2 : Heap Nat := add h1 0 12
def h3 : Heap Nat := add h2 0 13
def h4 : Heap Nat := add h3 2 14
def h5 : Heap Nat := add h4 2 15
def h6 : Heap Nat := (h5.newTreeRoot 16).1
/-- the demo memory -/
def heap : Heap Nat := add h6 6 17

/-- its child lists -/
def ch : NodeId → List NodeId
  | 0 => [1, 2, 3]
  | 2 => [4, 5]
  | 6 => [7]
  | _ => []

theorem add_wf {h : Heap Nat} {c : NodeId → List NodeId} (W : WF h c) {n : NodeId} {t : TreeId}
    (ha : h.alive n = true) (ht : h.memTree n = some t) (d : Nat) :
    WF (add h n d) (upd c n (c n ++ [h.nNode])) := by
  obtain ⟨h', h1, _, h3, _⟩ := nodeCreate_ok (as := .lastChild) W (.last n) ha ht d
  unfold add
  rw [h1]
  exact h3

theorem new_wf {h : Heap Nat} {c : NodeId → List NodeId} (W : WF h c) (d : Nat) :
    WF (h.newTreeRoot d).1 c := by
  obtain ⟨h', e, w, _⟩ := newTreeRoot_wf W d W.tree.fresh_tree
  rw [e]; exact w

theorem wf : WF heap ch := by
  have w0 : WF h0 (fun _ => []) := new_wf WF.empty 10
  have w1 : WF h1 _ := add_wf w0 (n := 0) (t := 0) rfl rfl 11
  have w2 : WF h2 _ := add_wf w1 (n := 0) (t := 0) rfl rfl 12
  have w3 : WF h3 _ := add_wf w2 (n := 0) (t := 0) rfl rfl 13
  have w4 : WF h4 _ := add_wf w3 (n := 2) (t := 0) rfl rfl 14
  have w5 : WF h5 _ := add_wf w4 (n := 2) (t := 0) rfl rfl 15
  have w6 : WF h6 _ := new_wf w5 16
  have w7 : WF heap _ := add_wf w6 (n := 6) (t := 1) rfl rfl 17
  refine cast ?_ w7
  congr 1
  funext x
  match x with
  | 0 => rfl
  | 1 => rfl
  | 2 => rfl
  | 3 => rfl
  | 4 => rfl
  | 5 => rfl
  | 6 => rfl
  | x + 7 => simp [ch]

end Dendron.Demo
