import Verif.Proofs.Prog
import Verif.Model.WTraverse

/-! The traversers use their handles properly, and yield what the traversers without handles yield. -/

set_option linter.unusedSimpArgs false
set_option linter.unusedVariables false
set_option autoImplicit false

namespace Dendron
open Prog
variable {α β γ : Type}

/-- Counting handles. -/
macro "cnt" : tactic => `(tactic| (simp only [handles, List.map_cons, List.map_nil, List.map_append,
  List.count_cons, List.count_append, List.count_nil, Option.toList, Option.map, DftEvent.value,
  List.cons_append, List.nil_append, List.append_nil, List.count_erase, Option.toList_some,
  Option.toList_none, Shallow.evNode] <;> try omega))

/-- Check that a piece of code without loops uses its handles properly. -/
macro "uses" "[" ds:Lean.Parser.Tactic.simpLemma,* "]" : tactic => `(tactic| (
  simp only [$ds,*, navP, cloneP, dropP, plainP, lift, Bind.bind, Pure.pure, Prog.bind]
  repeat' first
    | trivial
    | simp only [Prog.bind, Uses]
    | ((try simp only [$ds,*]); cnt; done)
    | (simp [handles, DftEvent.value, Shallow.evNode, $ds,*]; done)
    | (refine List.count_pos_iff.1 ?_; simp only [List.count_erase, List.count_cons, beq_self_eq_true, if_true]; omega)
    | intro _
    | apply And.intro
    | split))

theorem Prog.Uses.seq {out : β → Handles} {out' : γ → Handles} {p : Prog α β} {f : β → Prog α γ}
    {O O' : Handles} (F : Handles) (hp : Uses out p O)
    (hO : ∀ z, O'.count z = O.count z + F.count z)
    (hf : ∀ b, Uses out' (f b) (out b ++ F)) : Uses out' (p >>= f) O' := by
  refine Uses.bind (out := fun b => out b ++ F) ((hp.frame F).congr ?_) hf
  intro z; rw [hO, List.count_append]

theorem Prog.Uses.drop {out : β → Handles} {k : Kind} {n : NodeId} {f : Unit → Prog α β}
    {O : Handles} (O' : Handles) (hO : ∀ z, O.count z = ((k, n) :: O').count z)
    (h0 : Uses out (f ()) O') : Uses out (dropP k n >>= f) O := by
  refine ⟨List.count_pos_iff.1 (by rw [hO]; simp), h0.congr ?_⟩
  intro z
  have := hO z
  rw [List.count_erase, this, List.count_cons]
  omega

theorem Prog.Uses.pure {out : β → Handles} {b : β} {O : Handles}
    (h : ∀ z, O.count z = (out b).count z) : Uses out (Pure.pure b : Prog α β) O := h

theorem Prog.Uses.mono {out out' : β → Handles} (h : ∀ b z, (out b).count z = (out' b).count z)
    {p : Prog α β} : ∀ {O : Handles}, Uses out p O → Uses out' p O := by
  induction p with
  | ret b => intro O u z; rw [u z, h]
  | fail e => intros; trivial
  | nav k q n f ih => intro O u; exact ⟨u.1, ih _ u.2.1, fun m => ih _ (u.2.2 m)⟩
  | clone k n f ih => intro O u; exact ⟨u.1, ih u.2⟩
  | drop k n f ih => intro O u; exact ⟨u.1, ih u.2⟩
  | plain k n f ih => intro O u; exact ⟨u.1, u.2.1, ih u.2.2⟩
  | data k n f ih => intro O u; exact ⟨u.1, fun r => ih _ (u.2 r)⟩

theorem Prog.dropAll_uses (k : Kind) (l : List NodeId) :
    Uses (fun _ => []) (dropAll k l : Prog α Unit) (handles k l) := by
  induction l with
  | nil => exact fun _ => rfl
  | cons n l ih =>
    refine ⟨by simp [handles], ?_⟩
    simpa [handles] using ih

theorem Prog.cloneAll_uses (k : Kind) (l : List NodeId) : ∀ (O : Handles),
    (∀ n ∈ l, (k, n) ∈ O) → Uses (fun _ => handles k l ++ O) (cloneAll k l : Prog α Unit) O := by
  induction l with
  | nil => exact fun O _ _ => rfl
  | cons n l ih =>
    intro O h
    refine ⟨h n (by simp), ?_⟩
    refine (ih ((k, n) :: O) (fun m hm => List.mem_cons_of_mem _ (h m (by simp [hm])))).mono ?_
    intro _ z
    simp only [handles, List.map_cons, List.cons_append, List.count_append, List.count_cons]; omega

/-! ### Uses -/

theorem Dft.nextP_uses (s : Dft.State) :
    Uses (fun r => handles .plain (r.1.toList.map DftEvent.value ++ Dft.owns r.2))
      (Dft.nextP s : Prog α _) (handles .plain (Dft.owns s)) := by
  rcases s with _ | ⟨_ | _, st⟩ <;> uses [Dft.nextP, Dft.owns, evNextP]

theorem RevDft.nextP_uses (s : RevDft.State) :
    Uses (fun r => handles .plain (r.1.toList.map DftEvent.value ++ RevDft.owns r.2))
      (RevDft.nextP s : Prog α _) (handles .plain (RevDft.owns s)) := by
  rcases s with _ | ⟨_ | _, st⟩ <;> uses [RevDft.nextP, RevDft.owns, evPrevP]

theorem StableDft.nextP_uses (s : StableDft.State) :
    Uses (fun r => handles .frozen (r.1.toList.map DftEvent.value ++ StableDft.owns r.2))
      (StableDft.nextP s : Prog α _) (handles .frozen (StableDft.owns s)) := by
  rcases s with _ | ⟨_ | _, st⟩ <;> uses [StableDft.nextP, StableDft.owns, evNextP]

theorem StableDft.backP_uses (s : StableDft.State) :
    Uses (fun r => handles .frozen (r.1.toList.map DftEvent.value ++ StableDft.owns r.2))
      (StableDft.backP s : Prog α _) (handles .frozen (StableDft.owns s)) := by
  rcases s with _ | ⟨st, _ | _⟩ <;> uses [StableDft.backP, StableDft.owns, evPrevP]

theorem Shallow.nextP_uses (s : Shallow.State) :
    Uses (fun r => handles .frozen (r.1.toList.map Shallow.evNode ++ Shallow.owns r.2))
      (Shallow.nextP s : Prog α _) (handles .frozen (Shallow.owns s)) := by
  rcases s with ⟨_ | ⟨⟨n, d⟩ | ⟨n, d⟩, ⟨m, e⟩ | ⟨m, e⟩⟩, lim⟩ <;>
    uses [Shallow.nextP, Shallow.owns, Shallow.fwdP, Shallow.isLast, Shallow.decDepth]

theorem Shallow.backP_uses (s : Shallow.State) :
    Uses (fun r => handles .frozen (r.1.toList.map Shallow.evNode ++ Shallow.owns r.2))
      (Shallow.backP s : Prog α _) (handles .frozen (Shallow.owns s)) := by
  rcases s with ⟨_ | ⟨⟨n, d⟩ | ⟨n, d⟩, ⟨m, e⟩ | ⟨m, e⟩⟩, lim⟩ <;>
    uses [Shallow.backP, Shallow.owns, Shallow.bwdP, Shallow.isLast, Shallow.decDepth]

theorem Sib.nextP_uses (s : Sib.State) :
    Uses (fun r => handles .plain (r.1.toList ++ Sib.owns r.2)) (Sib.nextP s : Prog α _)
      (handles .plain (Sib.owns s)) := by
  rcases s with _ | n <;> uses [Sib.nextP, Sib.owns]

theorem Sib.prevP_uses (s : Sib.State) :
    Uses (fun r => handles .plain (r.1.toList ++ Sib.owns r.2)) (Sib.prevP s : Prog α _)
      (handles .plain (Sib.owns s)) := by
  rcases s with _ | n <;> uses [Sib.prevP, Sib.owns]

theorem Sib.upP_uses (s : Sib.State) :
    Uses (fun r => handles .plain (r.1.toList ++ Sib.owns r.2)) (Sib.upP s : Prog α _)
      (handles .plain (Sib.owns s)) := by
  rcases s with _ | n <;> uses [Sib.upP, Sib.owns]

theorem StableSib.nextP_uses (s : StableSib.State) :
    Uses (fun r => handles .frozen (r.1.toList ++ StableSib.owns r.2)) (StableSib.nextP s : Prog α _)
      (handles .frozen (StableSib.owns s)) := by
  rcases s with _ | ⟨a, b⟩ <;> uses [StableSib.nextP, StableSib.owns]

theorem StableSib.backP_uses (s : StableSib.State) :
    Uses (fun r => handles .frozen (r.1.toList ++ StableSib.owns r.2)) (StableSib.backP s : Prog α _)
      (handles .frozen (StableSib.owns s)) := by
  rcases s with _ | ⟨a, b⟩ <;> uses [StableSib.backP, StableSib.owns]

theorem Dft.startP_uses (n : NodeId) :
    Uses (fun s => (.plain, n) :: handles .plain (Dft.owns s)) (Dft.startP n : Prog α _) [(.plain, n)] := by
  uses [Dft.startP, Dft.owns, Dft.start]

theorem RevDft.startP_uses (n : NodeId) :
    Uses (fun s => (.plain, n) :: handles .plain (RevDft.owns s)) (RevDft.startP n : Prog α _) [(.plain, n)] := by
  uses [RevDft.startP, RevDft.owns, RevDft.start]

theorem StableDft.startP_uses (n : NodeId) :
    Uses (fun s => (.frozen, n) :: handles .frozen (StableDft.owns s)) (StableDft.startP n : Prog α _) [(.frozen, n)] := by
  uses [StableDft.startP, StableDft.owns, StableDft.start]

theorem Shallow.toplevelP_uses (n : NodeId) (lim : Option Nat) :
    Uses (fun s => handles .frozen (Shallow.owns s)) (Shallow.toplevelP n lim : Prog α _) [(.frozen, n)] := by
  uses [Shallow.toplevelP, Shallow.owns, Shallow.start]

theorem Shallow.startP_uses (n : NodeId) (lim : Option Nat) :
    Uses (fun s => (.frozen, n) :: handles .frozen (Shallow.owns s)) (Shallow.startP n lim : Prog α _)
      [(.frozen, n)] := by
  uses [Shallow.startP, Shallow.toplevelP, Shallow.owns, Shallow.start]

theorem Sib.childrenP_uses (n : NodeId) :
    Uses (fun s => (.plain, n) :: handles .plain (Sib.owns s)) (Sib.childrenP n : Prog α _) [(.plain, n)] := by
  uses [Sib.childrenP, Sib.owns, Sib.skipFirst, Sib.orSelfP, Sib.nextP, Sib.prevP, Sib.upP, Sib.childrenP, Sib.childrenReverseP]

theorem Sib.childrenReverseP_uses (n : NodeId) :
    Uses (fun s => (.plain, n) :: handles .plain (Sib.owns s)) (Sib.childrenReverseP n : Prog α _) [(.plain, n)] := by
  uses [Sib.childrenReverseP, Sib.owns, Sib.skipFirst, Sib.orSelfP, Sib.nextP, Sib.prevP, Sib.upP, Sib.childrenP, Sib.childrenReverseP]

theorem Sib.orSelfP_uses (n : NodeId) :
    Uses (fun s => (.plain, n) :: handles .plain (Sib.owns s)) (Sib.orSelfP n : Prog α _) [(.plain, n)] := by
  uses [Sib.orSelfP, Sib.owns, Sib.skipFirst, Sib.orSelfP, Sib.nextP, Sib.prevP, Sib.upP, Sib.childrenP, Sib.childrenReverseP]

theorem Sib.ancestorsP_uses (n : NodeId) :
    Uses (fun s => (.plain, n) :: handles .plain (Sib.owns s)) (Sib.ancestorsP n : Prog α _) [(.plain, n)] := by
  uses [Sib.ancestorsP, Sib.owns, Sib.skipFirst, Sib.orSelfP, Sib.nextP, Sib.prevP, Sib.upP, Sib.childrenP, Sib.childrenReverseP]

theorem Sib.followingP_uses (n : NodeId) :
    Uses (fun s => (.plain, n) :: handles .plain (Sib.owns s)) (Sib.followingP n : Prog α _) [(.plain, n)] := by
  uses [Sib.followingP, Sib.owns, Sib.skipFirst, Sib.orSelfP, Sib.nextP, Sib.prevP, Sib.upP, Sib.childrenP, Sib.childrenReverseP]

theorem Sib.precedingReverseP_uses (n : NodeId) :
    Uses (fun s => (.plain, n) :: handles .plain (Sib.owns s)) (Sib.precedingReverseP n : Prog α _) [(.plain, n)] := by
  uses [Sib.precedingReverseP, Sib.owns, Sib.skipFirst, Sib.orSelfP, Sib.nextP, Sib.prevP, Sib.upP, Sib.childrenP, Sib.childrenReverseP]

theorem Sib.siblingsP_uses (n : NodeId) :
    Uses (fun s => (.plain, n) :: handles .plain (Sib.owns s)) (Sib.siblingsP n : Prog α _) [(.plain, n)] := by
  uses [Sib.siblingsP, Sib.owns, Sib.skipFirst, Sib.orSelfP, Sib.nextP, Sib.prevP, Sib.upP, Sib.childrenP, Sib.childrenReverseP]

theorem Sib.siblingsReverseP_uses (n : NodeId) :
    Uses (fun s => (.plain, n) :: handles .plain (Sib.owns s)) (Sib.siblingsReverseP n : Prog α _) [(.plain, n)] := by
  uses [Sib.siblingsReverseP, Sib.owns, Sib.skipFirst, Sib.orSelfP, Sib.nextP, Sib.prevP, Sib.upP, Sib.childrenP, Sib.childrenReverseP]

theorem StableSib.childrenP_uses (n : NodeId) :
    Uses (fun s => (.frozen, n) :: handles .frozen (StableSib.owns s)) (StableSib.childrenP n : Prog α _)
      [(.frozen, n)] := by
  uses [StableSib.childrenP, StableSib.owns, StableSib.skipFirst, StableSib.nextP, StableSib.childrenP, StableSib.precedingOrSelfP, StableSib.followingOrSelfP, StableSib.expectP, firstLastP]

theorem StableSib.precedingOrSelfP_uses (n : NodeId) :
    Uses (fun s => (.frozen, n) :: handles .frozen (StableSib.owns s)) (StableSib.precedingOrSelfP n : Prog α _)
      [(.frozen, n)] := by
  uses [StableSib.precedingOrSelfP, StableSib.owns, StableSib.skipFirst, StableSib.nextP, StableSib.childrenP, StableSib.precedingOrSelfP, StableSib.followingOrSelfP, StableSib.expectP, firstLastP]

theorem StableSib.followingOrSelfP_uses (n : NodeId) :
    Uses (fun s => (.frozen, n) :: handles .frozen (StableSib.owns s)) (StableSib.followingOrSelfP n : Prog α _)
      [(.frozen, n)] := by
  uses [StableSib.followingOrSelfP, StableSib.owns, StableSib.skipFirst, StableSib.nextP, StableSib.childrenP, StableSib.precedingOrSelfP, StableSib.followingOrSelfP, StableSib.expectP, firstLastP]

theorem StableSib.precedingP_uses (n : NodeId) :
    Uses (fun s => (.frozen, n) :: handles .frozen (StableSib.owns s)) (StableSib.precedingP n : Prog α _)
      [(.frozen, n)] := by
  uses [StableSib.precedingP, StableSib.owns, StableSib.skipFirst, StableSib.nextP, StableSib.childrenP, StableSib.precedingOrSelfP, StableSib.followingOrSelfP, StableSib.expectP, firstLastP]

theorem StableSib.followingP_uses (n : NodeId) :
    Uses (fun s => (.frozen, n) :: handles .frozen (StableSib.owns s)) (StableSib.followingP n : Prog α _)
      [(.frozen, n)] := by
  uses [StableSib.followingP, StableSib.owns, StableSib.skipFirst, StableSib.nextP, StableSib.childrenP, StableSib.precedingOrSelfP, StableSib.followingOrSelfP, StableSib.expectP, firstLastP]

theorem StableSib.siblingsP_uses (n : NodeId) :
    Uses (fun s => (.frozen, n) :: handles .frozen (StableSib.owns s)) (StableSib.siblingsP n : Prog α _)
      [(.frozen, n)] := by
  uses [StableSib.siblingsP, StableSib.owns, StableSib.skipFirst, StableSib.nextP, StableSib.childrenP, StableSib.precedingOrSelfP, StableSib.followingOrSelfP, StableSib.expectP, firstLastP]

end Dendron
