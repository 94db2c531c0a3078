import Verif.Proofs.WideProg
import Verif.Proofs.Loops

/-! Loops over an iterator that change the tree, in the wider histories. -/

set_option linter.unusedSimpArgs false
set_option linter.unusedVariables false

set_option autoImplicit false

namespace Dendron
open Prog
variable {α β γ σ ι : Type} {w w1 : World α} {ch : NodeId → List NodeId} {n p : NodeId} {h : Heap α} {Ok : NodeId → Prop}

/-! ### Which code asks for a last child -/

theorem Prog.Steers.bind {p : Prog α β} {f : β → Prog α γ} : Steers h ch p →
    (∀ b, p.eval h = .ok b → Steers h ch (f b)) → Steers h ch (p.bind f) := by
  induction p with
  | ret b => intro _ h2; exact h2 b rfl
  | fail e => intros; trivial
  | nav k q n g ih =>
    intro h1 h2
    refine ⟨h1.1, fun r hr => ih r (h1.2 r hr) fun b hb => h2 b ?_⟩
    simp only [eval, hr]; exact hb
  | clone k n g ih => intro h1 h2; exact ih h1 h2
  | drop k n g ih => intro h1 h2; exact ih h1 h2
  | plain k n g ih => intro h1 h2; exact ih h1 h2
  | data k n g ih => intro h1 h2; exact ih _ h1 h2

/-- Check that a piece of code without loops does not ask for a last child. -/
macro "steers" "[" ds:Lean.Parser.Tactic.simpLemma,* "]" : tactic => `(tactic| (
  simp only [$ds,*, navP, cloneP, dropP, plainP, lift, Bind.bind, Pure.pure, Prog.bind]
  repeat' first
    | trivial
    | simp only [Prog.bind, Steers, UsesLast]
    | intro _
    | apply And.intro
    | contradiction
    | split))

theorem Dft.startP_steers (n : NodeId) : Steers h ch (Dft.startP n) := by steers [Dft.startP]
theorem Dft.nextP_steers (s : Dft.State) : Steers h ch (Dft.nextP s) := by
  rcases s with _ | ⟨_ | _, st⟩ <;> steers [Dft.nextP, evNextP]
theorem Sib.nextP_steers (s : Sib.State) : Steers h ch (Sib.nextP s) := by
  rcases s with _ | n <;> steers [Sib.nextP]
theorem Sib.upP_steers (s : Sib.State) : Steers h ch (Sib.upP s) := by
  rcases s with _ | n <;> steers [Sib.upP]
theorem Sib.childrenP_steers (n : NodeId) : Steers h ch (Sib.childrenP n) := by steers [Sib.childrenP]
theorem Sib.orSelfP_steers (n : NodeId) : Steers h ch (Sib.orSelfP n) := by steers [Sib.orSelfP]
theorem Sib.ancestorsP_steers (n : NodeId) : Steers h ch (Sib.ancestorsP n) := by
  steers [Sib.ancestorsP, Sib.skipFirst, Sib.orSelfP, Sib.upP]
theorem Sib.followingP_steers (n : NodeId) : Steers h ch (Sib.followingP n) := by
  steers [Sib.followingP, Sib.skipFirst, Sib.orSelfP, Sib.nextP]
theorem Sib.siblingsP_steers (n : NodeId) : Steers h ch (Sib.siblingsP n) := by
  steers [Sib.siblingsP, Sib.childrenP, Sib.orSelfP]

theorem methodP_steers {k : Kind} {p : Prog α β} (hp : Steers h ch p) : Steers h ch (methodP k n p) := by
  cases k with
  | plain => exact hp
  | hot =>
    show Steers h ch ((plainP .hot n).bind fun _ => p.bind fun s => (dropP .plain n).bind fun _ => ret s)
    exact .bind trivial fun _ _ => .bind hp fun _ _ => trivial
  | frozen =>
    show Steers h ch ((plainP .frozen n).bind fun _ => p.bind fun s => (dropP .plain n).bind fun _ => ret s)
    exact .bind trivial fun _ _ => .bind hp fun _ _ => trivial

/-! ### Reading in the wider histories -/

theorem alive_splitW (C : CoherentOn h ch Ok) (F : FShape h ch) (ha : h.alive n = true) :
    (∃ p l1 l2, ch p = l1 ++ n :: l2) ∨ ((∀ p, n ∉ ch p) ∧ h.parentLink n = none) := by
  by_cases e : ∃ p, n ∈ ch p
  · obtain ⟨p, hp⟩ := e
    obtain ⟨l1, l2, e⟩ := List.append_of_mem hp
    exact .inl ⟨p, l1, l2, e⟩
  · refine .inr ⟨fun p hp => e ⟨p, hp⟩, ?_⟩
    cases h1 : h.parentLink n with
    | none => rfl
    | some p => exact absurd ⟨p, (C.parent p n ha).1 h1⟩ e

theorem CoherentOn.nextSib (C : CoherentOn h ch Ok) (F : FShape h ch) (ha : h.alive n = true) :
    NextSib ch n (h.nextLink n) := by
  rcases alive_splitW C F ha with ⟨p, l1, l2, e⟩ | ⟨h1, h2⟩
  · rw [C.next p l1 n l2 e]
    cases l2 with
    | nil => exact .last e
    | cons m l2 => exact .next e
  · rw [(C.top n ha h1).1]; exact .out h1

theorem CoherentOn.parentIs (C : CoherentOn h ch Ok) (F : FShape h ch) (ha : h.alive n = true) :
    ParentIs ch n (h.parentLink n) := by
  rcases alive_splitW C F ha with ⟨p, l1, l2, e⟩ | ⟨h1, h2⟩
  · have hm : n ∈ ch p := by simp [e]
    rw [(C.parent p n ha).2 hm]; exact .up hm
  · rw [h2]; exact .out h1

theorem okOrNe {p n : NodeId} {l1 l2 : List NodeId} (ho : ∀ p, (ch p).head? = some n → Ok p)
    (e : ch p = l1 ++ n :: l2) : Ok p ∨ l1 ≠ [] := by
  cases l1 with
  | nil => exact .inl (ho p (by rw [e]; rfl))
  | cons a l => exact .inr (by simp)

theorem CoherentOn.prevSib (C : CoherentOn h ch Ok) (F : FShape h ch) (ha : h.alive n = true)
    (ho : ∀ p, (ch p).head? = some n → Ok p) : ∃ o, h.prevLink n = .ok o ∧ PrevSib ch n o := by
  rcases alive_splitW C F ha with ⟨p, l1, l2, e⟩ | ⟨h1, h2⟩
  · refine ⟨_, C.prev p l1 n l2 e (okOrNe ho e), ?_⟩
    rcases List.eq_nil_or_concat l1 with rfl | ⟨l, m, rfl⟩
    · exact .first e
    · have : (l.concat m).getLast? = some m := by simp
      rw [this]
      exact .prev (l1 := l) (l2 := l2) (by rw [e]; simp)
  · exact ⟨none, (C.top n ha h1).2.1, .out h1⟩

theorem CoherentOn.after (C : CoherentOn h ch Ok) (F : FShape h ch) {e : DftEvent NodeId} (ha : h.alive e.value = true) :
    After ch e (h.evNext e) := by
  cases e with
  | opn n =>
    replace ha : h.alive n = true := ha
    simp only [Heap.evNext, C.firstChild n ha]
    cases e : ch n with
    | nil => exact .leave e
    | cons c l => exact .enter e
  | cls n =>
    replace ha : h.alive n = true := ha
    simp only [Heap.evNext]
    rcases alive_splitW C F ha with ⟨p, l1, l2, e⟩ | ⟨h3, h4⟩
    · rw [C.next p l1 n l2 e]
      cases l2 with
      | nil =>
        have hm : n ∈ ch p := by simp [e]
        simp only [List.head?_nil, (C.parent p n ha).2 hm, Option.map_some]
        exact .up e
      | cons m l2 => exact .next e
    · simp only [(C.top n ha h3).1, h4, Option.map_none]
      exact .out h3

theorem CoherentOn.before (C : CoherentOn h ch Ok) (F : FShape h ch) {e : DftEvent NodeId} (ha : h.alive e.value = true)
    (ho : match e with
      | .cls n => Ok n
      | .opn n => ∀ p, (ch p).head? = some n → Ok p) : ∃ o, h.evPrev e = .ok o ∧ Before ch e o := by
  cases e with
  | cls n =>
    replace ha : h.alive n = true := ha
    have h1 := C.lastChild n ha ho
    simp only [Heap.evPrev, h1, Bind.bind, Except.bind]
    rcases List.eq_nil_or_concat (ch n) with e | ⟨l, c, e⟩
    · rw [e]; exact ⟨_, rfl, .leave e⟩
    · rw [e]
      simp only [List.concat_eq_append, List.getLast?_append, List.getLast?_singleton, Option.some_or]
      exact ⟨_, rfl, .enter (l := l) (by rw [e]; simp)⟩
  | opn n =>
    replace ha : h.alive n = true := ha
    simp only [Heap.evPrev, Bind.bind, Except.bind]
    rcases alive_splitW C F ha with ⟨p, l1, l2, e⟩ | ⟨h3, h4⟩
    · have hm : n ∈ ch p := by simp [e]
      rw [C.prev p l1 n l2 e (okOrNe ho e)]
      rcases List.eq_nil_or_concat l1 with rfl | ⟨l, m, rfl⟩
      · simp only [List.getLast?_nil, (C.parent p n ha).2 hm, Option.map_some]
        exact ⟨_, rfl, .up e⟩
      · simp only [List.concat_eq_append, List.getLast?_append, List.getLast?_singleton, Option.some_or]
        exact ⟨_, rfl, .prev (l1 := l) (l2 := l2) (by rw [e]; simp)⟩
    · rw [(C.top n ha h3).2.1]
      simp only [h4, Option.map_none]
      exact ⟨_, rfl, .out h3⟩

/-! ### Loops -/

theorem walk_followsW {Good : World α → σ → Prop} {owns : σ → List NodeId} {next : σ → Prog α (Option ι × σ)} {node : ι → NodeId}
    {P : (NodeId → List NodeId) → ι → Option ι → Prop} {nx : Heap α → σ → Except Fault (Option ι × σ)}
    {peek : σ → Option ι} {Inv : σ → Prop}
    (hn : ∀ s, Prog.Uses (fun r => handles .plain (r.1.toList.map node ++ owns r.2)) (next s) (handles .plain (owns s)))
    (he : ∀ (h : Heap α) s, (next s).eval h = nx h s)
    (hp : ∀ s x, peek s = some x → node x ∈ owns s)
    (hx : ∀ (w : World α) ch s, CoherentOn w.heap ch (LastRight w.heap ch) → FShape w.heap ch →
      (∀ x ∈ owns s, w.heap.alive x = true) → Inv s → Good w s → Steers w.heap ch (next s) ∧
      ∃ s', nx w.heap s = .ok (peek s, s') ∧ Inv s' ∧ (peek s = none → peek s' = none) ∧
        ∀ e, peek s = some e → P ch e (peek s'))
    {s : σ} (hr : ReachW w) (R : w.Roomy) (hh : w.Has (handles .plain (owns s))) (hg : Inv s) :
    FollowsW Good owns next node P w s (peek s) := by
  have facts : ∀ {w : World α} {s : σ}, ReachW w → w.Roomy → w.Has (handles .plain (owns s)) → Inv s → Good w s →
      ∃ ch w2 s', FShape w.heap ch ∧ (next s).run w = .ok (w2, (peek s, s')) ∧ ReachW w2 ∧ w2.Roomy ∧
        w2.Has (handles .plain (owns s')) ∧ Inv s' ∧ (peek s = none → peek s' = none) ∧
        (∀ e, peek s = some e → P ch e (peek s')) := by
    intro w s hr R hh hg hG
    obtain ⟨a, S⟩ := Shows.exists hr
    obtain ⟨v, ch, W⟩ := hr.wide
    obtain rfl := W.shape.unique S.children
    have hal : ∀ x ∈ owns s, w.heap.alive x = true := fun x hx =>
      W.held_alive (k := .plain) (hh.pos (List.mem_map.2 ⟨x, hx, rfl⟩))
    obtain ⟨st, s', e, h1, h2, h3⟩ := hx w _ s W.coherent S.children hal hg hG
    have := Prog.sound_wide hr S (S.roomy.1 R) hh (hn s) st
    rw [he, e] at this
    obtain ⟨w2, a2, e2, D⟩ := this
    refine ⟨_, w2, s', S.children, e2, D.reach, D.shows.roomy.2 D.roomy, ?_, h1, h2, h3⟩
    intro k m
    have h1 := D.exch.held k m
    have h2 := hh k m
    simp only [handles, List.map_append, List.count_append] at h1 h2 ⊢
    omega
  intro calls w1 s1 W
  induction W with
  | nil w s =>
    refine ⟨fun v x h => by simp at h, ?_, fun v x h => by simp at h, fun hG => ?_⟩
    · intro i w w' y
      exact ⟨fun h => by simp at h, fun x h => by simp at h⟩
    · obtain ⟨ch, w2, s', -, e2, -⟩ := facts hr R hh hg hG
      exact ⟨w2, _, _, e2⟩
  | other st hh' R' _ ih => exact ih (.step hr st) R' hh' hg
  | @call w w' w1 s s' s1 x calls hG e W ih =>
    obtain ⟨ch, w2, s0, F, e2, hr', R', hh', hg', hnone, hsome⟩ := facts hr R hh hg hG
    rw [e] at e2
    simp only [Except.ok.injEq, Prod.mk.injEq] at e2
    obtain ⟨rfl, rfl, rfl⟩ := e2
    obtain ⟨i1, i2, i3, i4⟩ := ih hr' R' hh' hg'
    refine ⟨?_, ?_, ?_, i4⟩
    · intro v x h
      simp only [List.head?_cons, Option.some.injEq, Prod.mk.injEq] at h
      exact h.2.symm
    · intro i v v' y
      cases i with
      | zero =>
        simp only [List.getElem?_cons_zero, Option.some.injEq, Prod.mk.injEq, List.getElem?_cons_succ]
        have hy : calls[0]? = some (v', y) → y = peek s' := by
          intro h; exact i1 v' y (by rw [List.head?_eq_getElem?]; exact h)
        refine ⟨?_, ?_⟩
        · rintro ⟨rfl, e1⟩ h2
          rw [hy h2]; exact hnone e1
        · rintro x ⟨rfl, e1⟩ h2
          rw [hy h2]; exact ⟨ch, F, hsome x e1⟩
      | succ i => simpa only [List.getElem?_cons_succ] using i2 i v v' y
    · intro v x h
      rcases List.mem_cons.1 h with e1 | h
      · simp only [Prod.mk.injEq] at e1
        obtain ⟨rfl, e1⟩ := e1
        obtain ⟨v', ch', W'⟩ := hr.wide
        exact W'.held_alive (k := .plain) (hh.pos (List.mem_map.2 ⟨_, hp s x e1.symm, rfl⟩))
      · exact i3 v x h

theorem loop_followsW {Good : World α → σ → Prop} {k : Kind} {start : Prog α σ} {owns : σ → List NodeId}
    {next : σ → Prog α (Option ι × σ)} {node : ι → NodeId} {first : Option ι → Prop}
    {P : (NodeId → List NodeId) → ι → Option ι → Prop} {peek : σ → Option ι} {s : σ}
    (hr : ReachW w) (R : w.Roomy) (F : FShape w.heap ch) (hk : 0 < w.held k n)
    (hu : Prog.Uses (fun s => (.plain, n) :: handles .plain (owns s)) start [(.plain, n)])
    (hs : Steers w.heap ch start) (es : start.eval w.heap = .ok s) (hf : first (peek s))
    (hw : ∀ w', ReachW w' → w'.Roomy → w'.Has (handles .plain (owns s)) → FollowsW Good owns next node P w' s (peek s)) :
    LoopFollowsW Good k n start owns next node first P w := by
  have h1 : w.Has [(k, n)] := by
    intro k' m
    rw [List.count_cons, List.count_nil]
    by_cases e : (k, n) = (k', m)
    · cases e; simp; exact hk
    · simp [e]
  obtain ⟨a, S⟩ := Shows.exists hr
  obtain rfl := F.unique S.children
  have := Prog.sound_wide hr S (S.roomy.1 R) h1 (methodP_uses (k := k) hu) (methodP_steers hs)
  rw [methodP_eval, es] at this
  obtain ⟨w', a', e, D⟩ := this
  refine ⟨w', s, _, e, hf, hw w' D.reach (D.shows.roomy.2 D.roomy) ?_⟩
  intro k' m
  have h2 := D.exch.held k' m
  have h3 := h1 k' m
  simp only [List.count_cons, List.count_nil] at h2 h3
  omega

/-! ### The iterators -/

theorem Dft.followsW {st : NodeId} (hr : ReachW w) (R : w.Roomy) {s : Dft.State}
    (hh : w.Has (handles .plain (Dft.owns s))) (hg : ∀ e t, s = some (e, t) → t = st) :
    FollowsW (fun _ _ => True) Dft.owns Dft.nextP DftEvent.value
      (fun ch x y => if x = .cls st then y = none else After ch x y) w s (Dft.peek s) := by
  refine walk_followsW (nx := Dft.next) (peek := Dft.peek) (Inv := fun s => ∀ e t, s = some (e, t) → t = st)
    Dft.nextP_uses Dft.nextP_eval ?_ ?_ hr R hh hg
  · rintro (_ | ⟨e, t⟩) x h
    · cases h
    · cases h; simp [Dft.owns]
  · rintro w ch (_ | ⟨e, t⟩) C F hal hg -
    · exact ⟨Dft.nextP_steers _, none, rfl, hg, fun _ => rfl, fun e h => by cases h⟩
    · obtain rfl := hg e t rfl
      refine ⟨Dft.nextP_steers _, _, rfl, ?_, fun h => by simp [Dft.peek] at h, ?_⟩
      · intro e' t' h
        split at h
        · cases h
        · cases h1 : w.heap.evNext e <;> simp [h1] at h; exact h.2.symm
      · intro e' h
        simp only [Dft.peek, Option.map_some, Option.some.injEq] at h
        subst h
        split
        · rfl
        · have : Dft.peek ((w.heap.evNext e).map (fun e => (e, t))) = w.heap.evNext e := by
            cases w.heap.evNext e <;> rfl
          rw [this]
          exact C.after F (hal _ (by simp [Dft.owns]))

theorem Sib.followsW {Good : World α → Sib.State → Prop} {next : Sib.State → Prog α (Option NodeId × Sib.State)}
    {nx : Heap α → Sib.State → Except Fault (Option NodeId × Sib.State)}
    {P : (NodeId → List NodeId) → NodeId → Option NodeId → Prop}
    (hn : ∀ s, Prog.Uses (fun r => handles .plain (r.1.toList ++ Sib.owns r.2)) (next s) (handles .plain (Sib.owns s)))
    (he : ∀ (h : Heap α) s, (next s).eval h = nx h s)
    (h0 : ∀ h : Heap α, nx h none = .ok (none, none))
    (hs : ∀ (w : World α) ch s, FShape w.heap ch → Good w s → Steers w.heap ch (next s))
    (h1 : ∀ (w : World α) ch n, CoherentOn w.heap ch (LastRight w.heap ch) → FShape w.heap ch →
      w.heap.alive n = true → Good w (some n) → ∃ o, nx w.heap (some n) = .ok (some n, o) ∧ P ch n o)
    (hr : ReachW w) (R : w.Roomy) {s : Sib.State} (hh : w.Has (handles .plain (Sib.owns s))) :
    FollowsW Good Sib.owns next id P w s s := by
  refine walk_followsW (nx := nx) (peek := Sib.peek) (Inv := fun _ => True) ?_ he ?_ ?_ hr R hh trivial
  · intro s; simpa using hn s
  · rintro (_ | n) x h
    · cases h
    · cases h; simp [Sib.owns]
  · rintro w ch (_ | n) C F hal - hG
    · exact ⟨hs w ch none F hG, none, h0 _, trivial, fun _ => rfl, fun e h => by cases h⟩
    · obtain ⟨o, e1, e2⟩ := h1 w ch n C F (hal _ (by simp [Sib.owns])) hG
      refine ⟨hs w ch _ F hG, o, e1, trivial, fun h => (by cases h), fun e h => ?_⟩
      cases h; exact e2

theorem Sib.nextFollowsW (hr : ReachW w) (R : w.Roomy) {s : Sib.State} (hh : w.Has (handles .plain (Sib.owns s))) :
    FollowsW (fun _ _ => True) Sib.owns Sib.nextP id NextSib w s s :=
  Sib.followsW Sib.nextP_uses Sib.nextP_eval (fun _ => rfl) (fun _ _ _ _ _ => Sib.nextP_steers _)
    (fun _ _ _ C F ha _ => ⟨_, rfl, C.nextSib F ha⟩) hr R hh

theorem Sib.upFollowsW (hr : ReachW w) (R : w.Roomy) {s : Sib.State} (hh : w.Has (handles .plain (Sib.owns s))) :
    FollowsW (fun _ _ => True) Sib.owns Sib.upP id ParentIs w s s :=
  Sib.followsW Sib.upP_uses Sib.upP_eval (fun _ => rfl) (fun _ _ _ _ _ => Sib.upP_steers _)
    (fun _ _ _ C F ha _ => ⟨_, rfl, C.parentIs F ha⟩) hr R hh

/-! ### Going back -/

theorem Sib.prevP_steers (F : FShape w.heap ch) {s : Sib.State} (hG : Sib.BackOk w s) :
    Steers w.heap ch (Sib.prevP s) := by
  rcases s with _ | n
  · trivial
  · exact ⟨fun p hp => hG n rfl ch F p hp, fun _ _ => trivial⟩

theorem RevDft.startP_steers (n : NodeId) : Steers h ch (RevDft.startP n) := by steers [RevDft.startP]

theorem RevDft.nextP_steers (F : FShape w.heap ch) {s : RevDft.State} (hG : RevDft.BackOk w s) :
    Steers w.heap ch (RevDft.nextP s) := by
  rcases s with _ | ⟨n | n, st⟩
  · trivial
  · have hb : w.BackRight (.opn n) := hG _ _ rfl
    simp only [RevDft.nextP]
    split
    · trivial
    · refine ⟨fun p hp => hb ch F p hp, fun r _ => ?_⟩
      cases r with
      | some s => exact trivial
      | none => exact ⟨fun p hp => hp.elim, fun r _ => by cases r <;> trivial⟩
  · have hb : w.BackRight (.cls n) := hG _ _ rfl
    simp only [RevDft.nextP]
    split
    · trivial
    · refine ⟨fun p hp => ?_, fun r _ => by cases r <;> trivial⟩
      obtain rfl : p = n := hp
      exact hb ch F

theorem RevDft.followsW {st : NodeId} (hr : ReachW w) (R : w.Roomy) {s : RevDft.State}
    (hh : w.Has (handles .plain (RevDft.owns s))) (hg : ∀ e t, s = some (e, t) → t = st) :
    FollowsW RevDft.BackOk RevDft.owns RevDft.nextP DftEvent.value
      (fun ch x y => if x = .opn st then y = none else Before ch x y) w s (RevDft.peek s) := by
  refine walk_followsW (nx := RevDft.next) (peek := RevDft.peek)
    (Inv := fun s => ∀ e t, s = some (e, t) → t = st) RevDft.nextP_uses RevDft.nextP_eval ?_ ?_ hr R hh hg
  · rintro (_ | ⟨e, t⟩) x h
    · cases h
    · cases h; simp [RevDft.owns]
  · rintro w ch (_ | ⟨e, t⟩) C F hal hg hG
    · exact ⟨RevDft.nextP_steers F hG, none, rfl, hg, fun _ => rfl, fun e h => by cases h⟩
    · obtain rfl := hg e t rfl
      refine ⟨RevDft.nextP_steers F hG, ?_⟩
      by_cases h1 : e = .opn t
      · refine ⟨none, by simp [RevDft.next, h1, RevDft.peek, Pure.pure, Except.pure], fun _ _ h => (by cases h),
          fun _ => rfl, ?_⟩
        intro e' h
        simp only [RevDft.peek, Option.map_some, Option.some.injEq] at h
        subst h
        simp [h1, RevDft.peek]
      · have hb : w.BackRight e := hG e _ rfl
        obtain ⟨o, h2, h3⟩ := C.before F (e := e) (hal _ (by simp [RevDft.owns])) (by
          cases e with
          | cls n => exact hb ch F
          | opn n => exact hb ch F)
        refine ⟨o.map (fun e => (e, t)),
          by simp [RevDft.next, h1, h2, RevDft.peek, Bind.bind, Except.bind, Pure.pure, Except.pure],
          ?_, fun h => by simp [RevDft.peek] at h, ?_⟩
        · intro e' t' h
          cases o <;> simp at h; exact h.2.symm
        · intro e' h
          simp only [RevDft.peek, Option.map_some, Option.some.injEq] at h
          subst h
          have : RevDft.peek (o.map (fun e => (e, t))) = o := by cases o <;> rfl
          rw [if_neg h1, this]
          exact h3

theorem Sib.prevFollowsW (hr : ReachW w) (R : w.Roomy) {s : Sib.State} (hh : w.Has (handles .plain (Sib.owns s))) :
    FollowsW Sib.BackOk Sib.owns Sib.prevP id PrevSib w s s := by
  refine Sib.followsW Sib.prevP_uses Sib.prevP_eval (fun _ => rfl) (fun _ _ _ F hG => Sib.prevP_steers F hG)
    (fun w ch n C F ha hG => ?_) hr R hh
  obtain ⟨o, h1, h2⟩ := C.prevSib F ha (hG n rfl ch F)
  exact ⟨o, by simp [Sib.prev, h1, Bind.bind, Except.bind, Pure.pure, Except.pure], h2⟩

end Dendron
