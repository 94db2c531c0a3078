import Verif.Proofs.WTraverse
import Verif.Spec.Iter

/-! On the memory, the traversers with handles are the traversers without. -/

set_option linter.unusedSimpArgs false
set_option linter.unusedVariables false
set_option autoImplicit false

namespace Dendron
open Prog
variable {α β γ : Type}

theorem Prog.eval_bind' (h : Heap α) (f : β → Prog α γ) (p : Prog α β) :
    (p >>= f).eval h = (match p.eval h with | .ok b => (f b).eval h | .error e => .error e) :=
  Prog.eval_bind h f p

/-- Compute a piece of code without loops on the memory. -/
macro "evals" "[" ds:Lean.Parser.Tactic.simpLemma,* "]" : tactic => `(tactic| (
  simp only [$ds,*, navP, cloneP, dropP, plainP, lift, Bind.bind, Pure.pure, Prog.bind, eval, Heap.navTo,
    Except.bind, Except.pure]
  repeat' first
    | rfl
    | contradiction
    | simp only [Prog.bind, eval, Except.bind, Except.pure, Heap.navTo]
    | split
    | (simp_all [eval, Prog.bind]; done)))

theorem evNextP_eval (k : Kind) (h : Heap α) (ev : DftEvent NodeId) :
    (evNextP k ev).eval h = .ok (h.evNext ev) := by
  cases ev <;> evals [evNextP, Heap.evNext]

theorem evPrevP_eval (k : Kind) (h : Heap α) (ev : DftEvent NodeId) :
    (evPrevP k ev).eval h = h.evPrev ev := by
  cases ev <;> evals [evPrevP, Heap.evPrev]

theorem Dft.nextP_eval (h : Heap α) (s : Dft.State) : (Dft.nextP s).eval h = Dft.next h s := by
  rcases s with _ | ⟨ev, st⟩
  · rfl
  · simp only [Dft.nextP, Dft.next]
    split
    · rfl
    · rw [eval_bind', evNextP_eval]
      cases h.evNext ev <;> rfl

theorem RevDft.nextP_eval (h : Heap α) (s : RevDft.State) : (RevDft.nextP s).eval h = RevDft.next h s := by
  rcases s with _ | ⟨ev, st⟩
  · rfl
  · simp only [RevDft.nextP, RevDft.next]
    split
    · rfl
    · rw [eval_bind', evPrevP_eval]
      cases h.evPrev ev with
      | error e => rfl
      | ok o => cases o <;> rfl

theorem StableDft.nextP_eval (h : Heap α) (s : StableDft.State) :
    (StableDft.nextP s).eval h = StableDft.next h s := by
  rcases s with _ | ⟨a, b⟩
  · rfl
  · simp only [StableDft.nextP, StableDft.next]
    rw [eval_bind', evNextP_eval]
    cases h.evNext a <;> rfl

theorem StableDft.backP_eval (h : Heap α) (s : StableDft.State) :
    (StableDft.backP s).eval h = StableDft.back h s := by
  rcases s with _ | ⟨a, b⟩
  · rfl
  · simp only [StableDft.backP, StableDft.back]
    rw [eval_bind', evPrevP_eval]
    cases h.evPrev b with
    | error e => rfl
    | ok o => cases o <;> rfl

theorem Shallow.fwdP_eval (h : Heap α) (lim : Option Nat) (e : Shallow.Ev) :
    (Shallow.fwdP lim e).eval h = Shallow.fwd h lim e := by
  rcases e with ⟨n, d⟩ | ⟨n, d⟩ <;> evals [Shallow.fwdP, Shallow.fwd, Shallow.decDepth]

theorem Shallow.bwdP_eval (h : Heap α) (lim : Option Nat) (e : Shallow.Ev) :
    (Shallow.bwdP lim e).eval h = Shallow.bwd h lim e := by
  rcases e with ⟨n, d⟩ | ⟨n, d⟩ <;> evals [Shallow.bwdP, Shallow.bwd, Shallow.decDepth]

theorem Shallow.nextP_eval (h : Heap α) (s : Shallow.State) :
    (Shallow.nextP s).eval h = Shallow.next h s := by
  rcases s with ⟨_ | ⟨a, b⟩, lim⟩
  · rfl
  · simp only [Shallow.nextP, Shallow.next]
    rw [eval_bind']
    cases Shallow.isLast a b with
    | error e => rfl
    | ok l =>
      simp only [lift, eval, Bind.bind, Except.bind]
      cases l with
      | true => rfl
      | false =>
        simp only [Bool.false_eq_true, if_false]
        rw [eval_bind, Shallow.fwdP_eval]
        cases Shallow.fwd h lim a with
        | error e => rfl
        | ok o => cases o <;> rfl

theorem Shallow.backP_eval (h : Heap α) (s : Shallow.State) :
    (Shallow.backP s).eval h = Shallow.back h s := by
  rcases s with ⟨_ | ⟨a, b⟩, lim⟩
  · rfl
  · simp only [Shallow.backP, Shallow.back]
    rw [eval_bind']
    cases Shallow.isLast a b with
    | error e => rfl
    | ok l =>
      simp only [lift, eval, Bind.bind, Except.bind]
      cases l with
      | true => rfl
      | false =>
        simp only [Bool.false_eq_true, if_false]
        rw [eval_bind, Shallow.bwdP_eval]
        cases Shallow.bwd h lim b with
        | error e => rfl
        | ok o => cases o <;> rfl

theorem Sib.nextP_eval (h : Heap α) (s : Sib.State) : (Sib.nextP s).eval h = Sib.next h s := by
  cases s <;> rfl
theorem Sib.prevP_eval (h : Heap α) (s : Sib.State) : (Sib.prevP s).eval h = Sib.prev h s := by
  cases s <;> evals [Sib.prevP, Sib.prev]
theorem Sib.upP_eval (h : Heap α) (s : Sib.State) : (Sib.upP s).eval h = Sib.up h s := by
  cases s <;> rfl

theorem StableSib.nextP_eval (h : Heap α) (s : StableSib.State) :
    (StableSib.nextP s).eval h = StableSib.next h s := by
  rcases s with _ | ⟨a, b⟩
  · rfl
  · evals [StableSib.nextP, StableSib.next]
theorem StableSib.backP_eval (h : Heap α) (s : StableSib.State) :
    (StableSib.backP s).eval h = StableSib.back h s := by
  rcases s with _ | ⟨a, b⟩
  · rfl
  · evals [StableSib.backP, StableSib.back]

theorem firstLastP_eval (h : Heap α) (k : Kind) (n : NodeId) :
    (firstLastP k n).eval h = h.firstLastChildLink n := by
  simp only [firstLastP, navP, Bind.bind, Prog.bind, eval, Heap.navTo, Heap.firstLastChildLink,
    Heap.lastChildLink]
  cases e0 : h.firstChildLink n with
  | none => rfl
  | some f =>
    simp only [Prog.bind, eval, Heap.navTo, Heap.lastChildLink, e0]
    cases e : h.prevCycLink f with
    | error _ => simp [Except.map]
    | ok l => rfl


/-! ### Constructors -/

theorem Dft.startP_eval (h : Heap α) (n : NodeId) : (Dft.startP n).eval h = .ok (Dft.start n) := rfl
theorem RevDft.startP_eval (h : Heap α) (n : NodeId) :
    (RevDft.startP n).eval h = .ok (RevDft.start n) := rfl
theorem StableDft.startP_eval (h : Heap α) (n : NodeId) :
    (StableDft.startP n).eval h = .ok (StableDft.start n) := rfl
theorem Shallow.startP_eval (h : Heap α) (n : NodeId) (lim : Option Nat) :
    (Shallow.startP n lim).eval h = .ok (Shallow.start n lim) := rfl
theorem Shallow.toplevelP_eval (h : Heap α) (n : NodeId) (lim : Option Nat) :
    (Shallow.toplevelP n lim).eval h = .ok (Shallow.start n lim) := rfl
theorem NaBfs.startP_eval (h : Heap α) (n : NodeId) (d : Nat) :
    (NaBfs.startP n d).eval h = .ok (NaBfs.start n d) := rfl

theorem Sib.childrenP_eval (h : Heap α) (n : NodeId) :
    (Sib.childrenP n).eval h = .ok (Sib.children h n) := rfl
theorem Sib.childrenReverseP_eval (h : Heap α) (n : NodeId) :
    (Sib.childrenReverseP n).eval h = Sib.childrenReverse h n := by
  evals [Sib.childrenReverseP, Sib.childrenReverse]
theorem Sib.orSelfP_eval (h : Heap α) (n : NodeId) : (Sib.orSelfP n).eval h = .ok (some n) := rfl
theorem Sib.ancestorsP_eval (h : Heap α) (n : NodeId) :
    (Sib.ancestorsP n).eval h = Sib.ancestors h n := rfl
theorem Sib.followingP_eval (h : Heap α) (n : NodeId) :
    (Sib.followingP n).eval h = Sib.following h n := rfl
theorem Sib.precedingReverseP_eval (h : Heap α) (n : NodeId) :
    (Sib.precedingReverseP n).eval h = Sib.precedingReverse h n := by
  simp only [Sib.precedingReverse, Sib.precedingOrSelfReverse]
  simp only [Sib.precedingReverseP, Sib.skipFirst, Sib.orSelfP, Sib.prevP, Sib.prev, navP, cloneP, dropP,
    Bind.bind, Pure.pure, Prog.bind, eval, Heap.navTo, Except.bind, Except.pure]
  cases h.prevLink n <;> rfl
theorem Sib.siblingsP_eval (h : Heap α) (n : NodeId) :
    (Sib.siblingsP n).eval h = .ok (Sib.siblings h n) := by
  simp only [Sib.siblingsP, Sib.siblings, navP, Bind.bind, Prog.bind, eval, Heap.navTo]
  cases h.parentLink n <;> rfl
theorem Sib.siblingsReverseP_eval (h : Heap α) (n : NodeId) :
    (Sib.siblingsReverseP n).eval h = Sib.siblingsReverse h n := by
  simp only [Sib.siblingsReverseP, Sib.siblingsReverse, navP, Bind.bind, Prog.bind, eval, Heap.navTo]
  cases h.parentLink n with
  | none => rfl
  | some p => evals [Sib.childrenReverseP, Sib.childrenReverse]

theorem StableSib.childrenP_eval (h : Heap α) (n : NodeId) :
    (StableSib.childrenP n).eval h = StableSib.children h n := by
  simp only [StableSib.childrenP, StableSib.children]
  rw [eval_bind']
  simp only [cloneP, eval]
  rw [eval_bind', firstLastP_eval]
  cases h.firstLastChildLink n <;> rfl
theorem StableSib.precedingOrSelfP_eval (h : Heap α) (n : NodeId) :
    (StableSib.precedingOrSelfP n).eval h = StableSib.precedingOrSelf h n := by
  simp only [StableSib.precedingOrSelfP, StableSib.precedingOrSelf, StableSib.expectP, navP, cloneP,
    Bind.bind, Pure.pure, Prog.bind, eval, Heap.navTo, Except.bind, Except.pure]
  cases h.firstSibling n <;> rfl
theorem StableSib.followingOrSelfP_eval (h : Heap α) (n : NodeId) :
    (StableSib.followingOrSelfP n).eval h = StableSib.followingOrSelf h n := by
  simp only [StableSib.followingOrSelfP, StableSib.followingOrSelf, StableSib.expectP, navP, cloneP,
    Bind.bind, Pure.pure, Prog.bind, eval, Heap.navTo, Except.bind, Except.pure]
  cases h.lastSibling n <;> rfl
theorem StableSib.skipFirst_eval (h : Heap α) (p : Prog α StableSib.State) :
    (StableSib.skipFirst p).eval h = (do let s ← p.eval h; let (_, s) ← StableSib.next h s; return s) := by
  simp only [StableSib.skipFirst]
  rw [eval_bind']
  cases p.eval h with
  | error e => rfl
  | ok s =>
    simp only
    rw [eval_bind', StableSib.nextP_eval]
    show _ = (do let (_, s) ← StableSib.next h s; return s)
    cases StableSib.next h s with
    | error e => rfl
    | ok r => obtain ⟨_ | x, s'⟩ := r <;> rfl
theorem StableSib.precedingP_eval (h : Heap α) (n : NodeId) :
    (StableSib.precedingP n).eval h = StableSib.preceding h n := by
  rw [StableSib.precedingP, StableSib.skipFirst_eval, StableSib.precedingOrSelfP_eval]; rfl
theorem StableSib.followingP_eval (h : Heap α) (n : NodeId) :
    (StableSib.followingP n).eval h = StableSib.following h n := by
  rw [StableSib.followingP, StableSib.skipFirst_eval, StableSib.followingOrSelfP_eval]; rfl
theorem StableSib.siblingsP_eval (h : Heap α) (n : NodeId) :
    (StableSib.siblingsP n).eval h = StableSib.siblings h n := by
  simp only [StableSib.siblingsP, StableSib.siblings]
  rw [eval_bind']
  simp only [navP, eval, Heap.navTo]
  cases h.parentLink n with
  | none => exact StableSib.followingOrSelfP_eval h n
  | some p =>
    simp only
    rw [eval_bind', StableSib.childrenP_eval]
    cases StableSib.children h p <;> rfl

/-! ### Loops -/

section loops
variable {σ ι ν : Type} {k : Kind}

theorem closeCurrentP_eval {node : ν → NodeId} {next : σ → Prog α (Option (DftEvent ν) × σ)}
    {nx : σ → Step σ (DftEvent ν)} {h : Heap α} (hn : ∀ s, (next s).eval h = nx s) (f : Nat) :
    ∀ (d : Nat) (s : σ), (closeCurrentP k node next f d s).eval h = closeCurrent nx f d s := by
  induction f with
  | zero => intros; rfl
  | succ f ih =>
    intro d s
    simp only [closeCurrentP, closeCurrent]
    rw [eval_bind', hn]
    match nx s with
    | .error e => rfl
    | .ok (none, s') => rfl
    | .ok (some (.opn v), s') => exact ih _ _
    | .ok (some (.cls v), s') =>
      simp only
      split
      · rfl
      · exact ih _ _

theorem closeCurrentP_uses {node : ν → NodeId} {owns : σ → List NodeId}
    {next : σ → Prog α (Option (DftEvent ν) × σ)}
    (hn : ∀ s, Uses (fun r => handles k (r.1.toList.map (fun e => node e.value) ++ owns r.2)) (next s)
      (handles k (owns s))) (f : Nat) :
    ∀ (d : Nat) (s : σ), Uses (fun r => handles k (r.1.toList.map node ++ owns r.2))
      (closeCurrentP k node next f d s) (handles k (owns s)) := by
  induction f with
  | zero => intros; trivial
  | succ f ih =>
    intro d s
    refine Uses.bind (hn s) ?_
    rintro ⟨_ | ev, s'⟩
    · exact Uses.pure (fun _ => rfl)
    · rcases ev with v | v
      · exact Uses.drop (handles k (owns s')) (fun z => rfl) (ih _ _)
      · simp only
        split
        · exact Uses.pure (fun _ => rfl)
        · exact Uses.drop (handles k (owns s')) (fun z => rfl) (ih _ _)

theorem takeP_uses {node : ι → NodeId} {owns : σ → List NodeId} {next : σ → Prog α (Option ι × σ)}
    (hn : ∀ s, Uses (fun r => handles k (r.1.toList.map node ++ owns r.2)) (next s)
      (handles k (owns s))) (j : Nat) :
    ∀ s : σ, Uses (fun r => handles k (owns r.2)) (takeP k node next j s) (handles k (owns s)) := by
  induction j with
  | zero => exact fun s => Uses.pure (fun _ => rfl)
  | succ j ih =>
    intro s
    refine Uses.bind (hn s) ?_
    rintro ⟨_ | x, s'⟩
    · exact Uses.pure (fun _ => rfl)
    · exact Uses.drop (handles k (owns s')) (fun z => rfl)
        (Uses.bind (ih s') (fun r => Uses.pure (fun _ => rfl)))

theorem takeP_eval {node : ι → NodeId} {next : σ → Prog α (Option ι × σ)} {nx : σ → Step σ ι}
    {h : Heap α} (hn : ∀ s, (next s).eval h = nx s) (j : Nat) :
    ∀ {s : σ} {l : List ι}, Yields nx s l → ∃ s', (takeP k node next j s).eval h = .ok (l.take j, s') := by
  induction j with
  | zero => intro s l _; exact ⟨s, by simp [takeP, Pure.pure, eval]⟩
  | succ j ih =>
    intro s l hy
    simp only [takeP]
    rw [eval_bind', hn]
    cases hy with
    | done e1 e2 => rw [e1]; exact ⟨_, rfl⟩
    | more e1 e2 =>
      rw [e1]
      obtain ⟨s'', e⟩ := ih e2
      refine ⟨s'', ?_⟩
      simp only [dropP, Bind.bind, Prog.bind, eval]
      rw [eval_bind, e]
      rfl

theorem dropAll_eval (k : Kind) (h : Heap α) (l : List NodeId) : (dropAll k l : Prog α Unit).eval h = .ok () := by
  induction l with
  | nil => rfl
  | cons n l ih => exact ih

theorem loopP_uses {node : ι → NodeId} {owns : σ → List NodeId} {next : σ → Prog α (Option ι × σ)}
    {start : Prog α σ} {F : Handles}
    (hs : Uses (fun s => F ++ handles k (owns s)) start F)
    (hn : ∀ s, Uses (fun r => handles k (r.1.toList.map node ++ owns r.2)) (next s)
      (handles k (owns s))) (j : Nat) :
    Uses (fun _ => F) (loopP k node owns start next j) F := by
  refine Uses.bind hs (fun s => ?_)
  refine Uses.seq F (takeP_uses hn j s) ?_ (fun r => ?_)
  · intro z; simp only [List.count_append]; omega
  refine Uses.seq F (dropAll_uses k (owns r.2)) ?_ (fun _ => Uses.pure ?_)
  · intro z; simp only [List.count_append]
  · intro z; simp

theorem loopP_eval {node : ι → NodeId} {owns : σ → List NodeId} {next : σ → Prog α (Option ι × σ)}
    {nx : σ → Step σ ι} {start : Prog α σ} {s : σ} {l : List ι}
    {h : Heap α} (hs : start.eval h = .ok s) (hn : ∀ s, (next s).eval h = nx s) (hy : Yields nx s l)
    (j : Nat) : (loopP k node owns start next j).eval h = .ok (l.take j) := by
  obtain ⟨s', e⟩ := takeP_eval (k := k) (node := node) hn j hy
  simp only [loopP]
  rw [eval_bind', hs]
  simp only
  rw [eval_bind', e]
  simp only
  rw [eval_bind', dropAll_eval]
  rfl

end loops

/-! ### Plain traversers of hot and frozen nodes -/

theorem viaPlain_uses {k : Kind} {n : NodeId} {p : Prog α β} {out : β → Handles} (hk : k ≠ .plain)
    (hp : Uses (fun s => (.plain, n) :: out s) p [(.plain, n)]) :
    Uses (fun s => (k, n) :: out s) (viaPlain k n p) [(k, n)] := by
  refine ⟨hk, by simp, ?_⟩
  show Uses _ (p >>= fun s => dropP .plain n >>= fun _ => pure s) _
  refine Uses.seq [(k, n)] hp ?_ (fun s => ?_)
  · intro z; simp only [Uses, List.count_cons, List.count_nil]; omega
  · refine Uses.drop ((k, n) :: out s) ?_ (Uses.pure (fun _ => rfl))
    intro z; simp only [List.count_cons, List.count_append, List.count_nil]; omega

theorem viaPlain_eval {k : Kind} {n : NodeId} {p : Prog α β} {h : Heap α} :
    (viaPlain k n p).eval h = p.eval h := by
  simp only [viaPlain]
  show (p >>= _).eval h = _
  rw [eval_bind']
  cases p.eval h <;> rfl

theorem methodP_uses {k : Kind} {n : NodeId} {p : Prog α β} {out : β → Handles}
    (hp : Uses (fun s => (.plain, n) :: out s) p [(.plain, n)]) :
    Uses (fun s => (k, n) :: out s) (methodP k n p) [(k, n)] := by
  cases k with
  | plain => exact hp
  | hot => exact viaPlain_uses (by decide) hp
  | frozen => exact viaPlain_uses (by decide) hp

theorem methodP_eval {k : Kind} {n : NodeId} {p : Prog α β} {h : Heap α} :
    (methodP k n p).eval h = p.eval h := by
  cases k with
  | plain => rfl
  | hot => exact viaPlain_eval
  | frozen => exact viaPlain_eval

/-! ### Breadth-first -/

theorem NaBfs.startP_uses (n : NodeId) (d : Nat) :
    Uses (fun s => (.frozen, n) :: handles .frozen (NaBfs.owns s)) (NaBfs.startP n d : Prog α _)
      [(.frozen, n)] := by
  uses [NaBfs.startP, NaBfs.owns, Shallow.toplevelP, Shallow.owns, Shallow.start]

theorem NaBfs.skipP_uses (d f : Nat) : ∀ s : Shallow.State,
    Uses (fun r => handles .frozen (r.1.toList ++ Shallow.owns r.2)) (NaBfs.skipP d f s : Prog α _)
      (handles .frozen (Shallow.owns s)) := by
  induction f with
  | zero => intros; trivial
  | succ f ih =>
    intro s
    refine Uses.bind (Shallow.nextP_uses s) ?_
    rintro ⟨_ | ev, s'⟩
    · exact Uses.pure (fun _ => rfl)
    · rcases ev with ⟨n, e⟩ | ⟨n, e⟩
      · simp only
        split
        · exact Uses.pure (fun _ => rfl)
        · exact Uses.drop (handles .frozen (Shallow.owns s')) (fun z => rfl) (ih s')
      · exact Uses.drop (handles .frozen (Shallow.owns s')) (fun z => rfl) (ih s')

theorem NaBfs.skipP_eval (h : Heap α) (d f : Nat) : ∀ s : Shallow.State,
    (NaBfs.skipP d f s).eval h = NaBfs.skip h d f s := by
  induction f with
  | zero => intros; rfl
  | succ f ih =>
    intro s
    simp only [NaBfs.skipP, NaBfs.skip]
    rw [eval_bind', Shallow.nextP_eval]
    match Shallow.next h s with
    | .error e => rfl
    | .ok (none, s') => rfl
    | .ok (some (.opn (n, e)), s') =>
      simp only
      split
      · rfl
      · exact ih s'
    | .ok (some (.cls (n, e)), s') => exact ih s'

theorem NaBfs.nextP_uses (f : Nat) (s : NaBfs.State) :
    Uses (fun r => handles .frozen (r.1.toList.map Prod.fst ++ NaBfs.owns r.2))
      (NaBfs.nextP f s : Prog α _) (handles .frozen (NaBfs.owns s)) := by
  obtain ⟨inner, root, depth⟩ := s
  cases root with
  | none => exact Uses.pure (fun _ => rfl)
  | some r =>
    refine Uses.seq [(.frozen, r)] (NaBfs.skipP_uses depth f inner) ?_ ?_
    · intro z; simp [NaBfs.owns, handles]
    · rintro ⟨x, i⟩
      cases x with
      | some n =>
        refine Uses.pure (fun z => ?_)
        simp [NaBfs.owns, handles]
      | none =>
        refine ⟨by simp [handles], ?_⟩
        show Uses _ (Shallow.toplevelP r (some (depth + 1)) >>= _) _
        refine Uses.seq (handles .frozen (Shallow.owns i) ++ [(.frozen, r)])
          (Shallow.toplevelP_uses r (some (depth + 1))) ?_ (fun j => ?_)
        · intro z
          simp only [Option.toList_none, List.nil_append, List.count_append, List.count_cons, List.count_nil]
          omega
        · refine Uses.seq (handles .frozen (Shallow.owns j) ++ [(.frozen, r)])
            (dropAll_uses .frozen (Shallow.owns i)) ?_ (fun _ => ?_)
          · intro z; simp only [List.count_append]; omega
          · refine Uses.seq [(.frozen, r)] (NaBfs.skipP_uses (depth + 1) f j) ?_ ?_
            · intro z; simp
            · rintro ⟨y, j'⟩
              cases y with
              | some n =>
                refine Uses.pure (fun z => ?_)
                simp [NaBfs.owns, handles]
              | none =>
                refine Uses.drop (handles .frozen (Shallow.owns j')) ?_ (Uses.pure ?_)
                · intro z
                  simp only [Option.toList_none, List.nil_append, List.count_append, List.count_cons,
                    List.count_nil]
                  omega
                · intro z; simp [NaBfs.owns, handles]

theorem NaBfs.nextP_eval (h : Heap α) (s : NaBfs.State) :
    (NaBfs.nextP (NaBfs.fuel h) s).eval h = NaBfs.next h s := by
  obtain ⟨inner, root, depth⟩ := s
  cases root with
  | none => rfl
  | some r =>
    simp only [NaBfs.nextP, NaBfs.next]
    rw [eval_bind', NaBfs.skipP_eval]
    match NaBfs.skip h depth (NaBfs.fuel h) inner with
    | .error e => rfl
    | .ok (some n, i) => rfl
    | .ok (none, i) =>
      simp only
      show ((dropAll .frozen (Shallow.owns i) : Prog α Unit) >>= _).eval h = _
      rw [eval_bind', dropAll_eval]
      simp only
      rw [eval_bind', NaBfs.skipP_eval]
      simp only [Bind.bind, Except.bind]
      match NaBfs.skip h (depth + 1) (NaBfs.fuel h) (Shallow.start r (some (depth + 1))) with
      | .error e => rfl
      | .ok (some n, j) => rfl
      | .ok (none, j) => rfl

theorem AlBfs.atDepthP_uses (d f : Nat) : ∀ s : Shallow.State,
    Uses (fun l => handles .frozen l) (AlBfs.atDepthP d f s : Prog α _)
      (handles .frozen (Shallow.owns s)) := by
  induction f with
  | zero => intros; trivial
  | succ f ih =>
    intro s
    refine Uses.bind (Shallow.nextP_uses s) ?_
    rintro ⟨_ | ev, s'⟩
    · exact Uses.bind (dropAll_uses .frozen (Shallow.owns s')) (fun _ => Uses.pure (fun _ => rfl))
    · rcases ev with ⟨n, e⟩ | ⟨n, e⟩
      · simp only
        split
        · refine Uses.seq [(.frozen, n)] (ih s') ?_ (fun l => Uses.pure ?_)
          · intro z
            simp only [handles, List.map_append, List.map_cons, List.map_nil, List.count_append,
              Option.toList_some, Shallow.evNode, DftEvent.value]
            omega
          · intro z
            simp only [handles, List.map_cons, List.count_append, List.count_cons, List.count_nil]
            omega
        · exact Uses.drop (handles .frozen (Shallow.owns s')) (fun z => rfl) (ih s')
      · exact Uses.drop (handles .frozen (Shallow.owns s')) (fun z => rfl) (ih s')

theorem AlBfs.atDepthP_eval (h : Heap α) (d f : Nat) : ∀ s : Shallow.State,
    (AlBfs.atDepthP d f s).eval h = (drain (Shallow.next h) f s).map (List.filterMap (fun e => match e with
      | .opn (m, e) => if e = d then some m else none
      | .cls _ => none)) := by
  induction f with
  | zero => intros; rfl
  | succ f ih =>
    intro s
    simp only [AlBfs.atDepthP, drain]
    rw [eval_bind', Shallow.nextP_eval]
    match Shallow.next h s with
    | .error e => rfl
    | .ok (none, s') =>
      show ((dropAll .frozen (Shallow.owns s') : Prog α Unit) >>= _).eval h = _
      rw [eval_bind', dropAll_eval]
      rfl
    | .ok (some (.opn (n, e)), s') =>
      simp only
      split
      · rename_i he
        rw [eval_bind', ih]
        cases drain (Shallow.next h) f s' with
        | error e => rfl
        | ok l => simp [Except.map, he, Pure.pure, eval]
      · rename_i he
        show (AlBfs.atDepthP d f s').eval h = _
        rw [ih]
        cases drain (Shallow.next h) f s' with
        | error e => rfl
        | ok l => simp [Except.map, he]
    | .ok (some (.cls (n, e)), s') =>
      simp only
      show (AlBfs.atDepthP d f s').eval h = _
      rw [ih]
      cases drain (Shallow.next h) f s' with
      | error e => rfl
      | ok l => simp [Except.map]

theorem AlBfs.startP_uses (f : Nat) (n : NodeId) (d : Nat) :
    Uses (fun s => (.frozen, n) :: handles .frozen (AlBfs.owns s)) (AlBfs.startP f n d : Prog α _)
      [(.frozen, n)] := by
  refine ⟨by simp, ?_⟩
  show Uses _ (if d = 0 then _ else _) _
  split
  · exact Uses.pure (fun z => by simp [AlBfs.owns, handles])
  · refine Uses.seq [(.frozen, n)] (Shallow.toplevelP_uses n (some d)) ?_ (fun s => ?_)
    · intro z; simp only [List.count_cons, List.count_nil]; omega
    · refine Uses.seq [(.frozen, n)] (AlBfs.atDepthP_uses d f s) ?_ (fun l => Uses.pure ?_)
      · intro z; simp only [List.count_append]
      · intro z
        have : AlBfs.owns ⟨l.map some ++ [none], d⟩ = l := by
          simp [AlBfs.owns, List.filterMap_append, List.filterMap_map]
        rw [this]
        simp only [List.count_append, List.count_cons, List.count_nil]; omega

theorem AlBfs.startP_eval (h : Heap α) (n : NodeId) (d : Nat) :
    (AlBfs.startP (NaBfs.fuel h) n d).eval h = AlBfs.start h n d := by
  simp only [AlBfs.startP, AlBfs.start]
  show (if d = 0 then (_ : Prog α _) else _).eval h = _
  split
  · rfl
  · show ((AlBfs.atDepthP d (NaBfs.fuel h) (Shallow.start n (some d)) : Prog α _) >>= _).eval h = _
    rw [eval_bind', AlBfs.atDepthP_eval]
    cases drain (Shallow.next h) (NaBfs.fuel h) (Shallow.start n (some d)) <;> rfl

theorem AlBfs.restP_uses (f : Nat) : ∀ s : StableSib.State,
    Uses (fun l => handles .frozen l) (AlBfs.restP f s : Prog α _)
      (handles .frozen (StableSib.owns s)) := by
  induction f with
  | zero => intros; trivial
  | succ f ih =>
    intro s
    refine Uses.bind (StableSib.nextP_uses s) ?_
    rintro ⟨_ | x, s'⟩
    · exact Uses.bind (dropAll_uses .frozen (StableSib.owns s')) (fun _ => Uses.pure (fun _ => rfl))
    · refine Uses.seq [(.frozen, x)] (ih s') ?_ (fun l => Uses.pure ?_)
      · intro z
        simp only [handles, List.map_append, List.map_cons, List.map_nil, List.count_append,
          Option.toList_some]
        omega
      · intro z
        simp only [handles, List.map_cons, List.count_append, List.count_cons, List.count_nil]
        omega

theorem AlBfs.restP_eval (h : Heap α) (f : Nat) : ∀ s : StableSib.State,
    (AlBfs.restP f s).eval h = drain (StableSib.next h) f s := by
  induction f with
  | zero => intros; rfl
  | succ f ih =>
    intro s
    simp only [AlBfs.restP, drain]
    rw [eval_bind', StableSib.nextP_eval]
    match StableSib.next h s with
    | .error e => rfl
    | .ok (none, s') =>
      show ((dropAll .frozen (StableSib.owns s') : Prog α Unit) >>= _).eval h = _
      rw [eval_bind', dropAll_eval]
      rfl
    | .ok (some x, s') =>
      simp only
      rw [eval_bind', ih]
      cases drain (StableSib.next h) f s' <;> rfl

theorem AlBfs.childListP_uses (f : Nat) (n : NodeId) :
    Uses (fun l => (.frozen, n) :: handles .frozen l) (AlBfs.childListP f n : Prog α _)
      [(.frozen, n)] := by
  refine Uses.bind (StableSib.childrenP_uses n) (fun s => ?_)
  refine ((AlBfs.restP_uses f s).frame [(.frozen, n)]).mono ?_ |>.congr ?_
  · intro l z; simp only [List.count_append, List.count_cons, List.count_nil]; omega
  · intro z; simp only [List.count_append, List.count_cons, List.count_nil]; omega

theorem AlBfs.childListP_eval (h : Heap α) (n : NodeId) :
    (AlBfs.childListP (h.nNode + 2) n).eval h = AlBfs.childList h n := by
  simp only [AlBfs.childListP, AlBfs.childList]
  rw [eval_bind', StableSib.childrenP_eval]
  cases StableSib.children h n with
  | error e => rfl
  | ok s => exact AlBfs.restP_eval h _ s

theorem AlBfs.nextFP_uses (g f : Nat) : ∀ s : AlBfs.State,
    Uses (fun r => handles .frozen (r.1.toList.map Prod.fst ++ AlBfs.owns r.2))
      (AlBfs.nextFP g f s : Prog α _) (handles .frozen (AlBfs.owns s)) := by
  induction f with
  | zero => intros; trivial
  | succ f ih =>
    rintro ⟨es, d⟩
    match es with
    | [] => exact Uses.pure (fun _ => rfl)
    | some n :: es =>
      refine Uses.seq (handles .frozen (es.filterMap id)) (AlBfs.childListP_uses g n) ?_
        (fun cs => Uses.pure ?_)
      · intro z
        simp only [AlBfs.owns, handles, List.filterMap_cons, id, List.map_cons, List.count_cons,
          List.count_nil]
        omega
      · intro z
        have e : (es ++ cs.map some).filterMap id = es.filterMap id ++ cs := by
          simp [List.filterMap_append, List.filterMap_map]
        simp only [AlBfs.owns, e, handles, Option.toList_some, List.map_cons, List.map_nil,
          List.map_append, List.cons_append, List.nil_append, List.count_cons, List.count_append]
        omega
    | none :: es =>
      simp only [AlBfs.nextFP]
      split
      · rename_i he; subst he; exact Uses.pure (fun _ => rfl)
      · refine (ih ⟨es ++ [none], d + 1⟩).congr ?_
        intro z; simp [AlBfs.owns, List.filterMap_append]

theorem AlBfs.nextFP_eval (h : Heap α) (f : Nat) : ∀ s : AlBfs.State,
    (AlBfs.nextFP (h.nNode + 2) f s).eval h = AlBfs.nextF h f s := by
  induction f with
  | zero => intros; rfl
  | succ f ih =>
    rintro ⟨es, d⟩
    match es with
    | [] => rfl
    | some n :: es =>
      simp only [AlBfs.nextFP, AlBfs.nextF]
      rw [eval_bind', AlBfs.childListP_eval]
      cases AlBfs.childList h n <;> rfl
    | none :: es =>
      simp only [AlBfs.nextFP, AlBfs.nextF]
      split
      · rfl
      · exact ih _

theorem AlBfs.nextP_uses (g : Nat) (s : AlBfs.State) :
    Uses (fun r => handles .frozen (r.1.toList.map Prod.fst ++ AlBfs.owns r.2))
      (AlBfs.nextP g s : Prog α _) (handles .frozen (AlBfs.owns s)) := AlBfs.nextFP_uses g _ s

theorem AlBfs.nextP_eval (h : Heap α) (s : AlBfs.State) :
    (AlBfs.nextP (h.nNode + 2) s).eval h = AlBfs.next h s := AlBfs.nextFP_eval h _ s

end Dendron
