import Verif.Model.Cascade

/-! A cascade of destructors that runs while the membership of a node `m` is mutably borrowed, some nodes are pinned
and some memberships still name the old tree, compared with the same cascade at rest. -/

set_option linter.unusedSimpArgs false
set_option linter.unusedVariables false
set_option autoImplicit false

namespace Dendron
variable {α : Type} {h h' h1 h2 : Heap α} {n x p : NodeId} {t u : TreeId} {c c' : Nest} {dt : Dtor α}
  {pins pins' : List NodeId} {f : Nat}

/-- The memberships of the nodes `U` name the tree `t` (weakly). -/
def Heap.back (h : Heap α) (U : List NodeId) (t : TreeId) : Heap α :=
  { h with mem := fun x => if x ∈ U then .weak (some t) else h.mem x }

/-- The number of handles to `m`. -/
def Heap.rcOf (h : Heap α) (m : NodeId) : Nat :=
  match h.mem m with
  | .strong _ rc _ => rc
  | .weak _ => 0

/-- The nodes `U` have no handle. -/
def Heap.NoHandle (h : Heap α) (U : List NodeId) : Prop := ∀ x ∈ U, ∃ u, h.mem x = .weak u

/-- The parameters of the comparison: `m` is busy, `U` are behind, the nodes `K` survive. -/
structure Late (m : NodeId) (U : List NodeId) (K : NodeId → Prop) : Prop where
  sub : ∀ x ∈ U, K x
  busy : K m
  out : m ∉ U

variable {m : NodeId} {U : List NodeId} {K : NodeId → Prop}

/-- Additional pins. -/
def PinsUp (K : NodeId → Prop) (p p' : List NodeId) : Prop := (∀ x ∈ p, x ∈ p') ∧ ∀ x ∈ p', x ∈ p ∨ K x

theorem PinsUp.cons {p p' : List NodeId} (P : PinsUp K p p') (x : NodeId) : PinsUp K (x :: p) (x :: p') := by
  refine ⟨fun y hy => ?_, fun y hy => ?_⟩
  · rcases List.mem_cons.1 hy with rfl | hy
    · exact List.mem_cons_self
    · exact List.mem_cons_of_mem _ (P.1 y hy)
  · rcases List.mem_cons.1 hy with rfl | hy
    · exact .inl List.mem_cons_self
    · rcases P.2 y hy with h | h
      · exact .inl (List.mem_cons_of_mem _ h)
      · exact .inr h

theorem PinsUp.append {p p' : List NodeId} (P : PinsUp K p p') (l : List NodeId) : PinsUp K (l ++ p) (l ++ p') := by
  induction l with
  | nil => exact P
  | cons x l ih => exact ih.cons x

/-- The situation with more pins, and with `m` busy. -/
structure NestUp (m : NodeId) (K : NodeId → Prop) (c c' : Nest) : Prop where
  pins : PinsUp K c.pins c'.pins
  busy : ∀ x, x ∈ c'.busy ↔ x ∈ c.busy ∨ x = m
  dying : c'.dying = c.dying

theorem NestUp.withPins (N : NestUp m K c c') {p p' : List NodeId} (P : PinsUp K p p') :
    NestUp m K { c with pins := p } { c' with pins := p' } := ⟨P, N.busy, N.dying⟩

theorem NestUp.withDying (N : NestUp m K c c') (t : TreeId) :
    NestUp m K { c with dying := t :: c.dying } { c' with dying := t :: c'.dying } :=
  ⟨N.pins, N.busy, by rw [N.dying]⟩

theorem NestUp.withBusy (N : NestUp m K c c') (n : NodeId) :
    NestUp m K { c with busy := n :: c.busy } { c' with busy := n :: c'.busy } := by
  refine ⟨N.pins, fun x => ?_, N.dying⟩
  simp only [List.mem_cons, N.busy, or_assoc]

/-- Nothing comes to life, and `m` gets no handles. -/
structure Sinks (m : NodeId) (h h' : Heap α) : Prop where
  alive : ∀ x, h'.alive x = true → h.alive x = true
  rc : h'.rcOf m ≤ h.rcOf m

theorem Sinks.refl (m : NodeId) (h : Heap α) : Sinks m h h := ⟨fun _ h => h, Nat.le_refl _⟩

theorem Sinks.trans (A : Sinks m h h1) (B : Sinks m h1 h') : Sinks m h h' :=
  ⟨fun x hx => A.alive x (B.alive x hx), Nat.le_trans B.rc A.rc⟩

/-- The run `b` with `m` busy does what the run `a` does, until a handle to `m` is dropped. -/
def Runs (m : NodeId) (U : List NodeId) (K : NodeId → Prop) (t : TreeId) (h : Heap α)
    (a b : Except Fault (Heap α)) : Prop :=
  ∀ h', a = .ok h' → Sinks m h h' ∧ (h.NoHandle U → 0 < h.rcOf m → (∀ x, K x → h'.alive x = true) →
    (h'.rcOf m = h.rcOf m ∧ h'.NoHandle U ∧ b = .ok (h'.back U t)) ∨
    (h'.rcOf m < h.rcOf m ∧ b = .error Nest.nested))

theorem Runs.id : Runs m U K t h (.ok h) (.ok (h.back U t)) := by
  intro h' e
  cases e
  exact ⟨.refl m h, fun hU _ _ => .inl ⟨rfl, hU, rfl⟩⟩

theorem Runs.seq {a b : Except Fault (Heap α)} {fa fb : Heap α → Except Fault (Heap α)} (R : Runs m U K t h a b)
    (S : ∀ g, Runs m U K t g (fa g) (fb (g.back U t))) :
    Runs m U K t h (match (generalizing := false) a with | .error e => .error e | .ok g => fa g)
      (match (generalizing := false) b with | .error e => .error e | .ok g => fb g) := by
  intro h' e
  cases a with
  | error e' => cases e
  | ok g =>
    simp only at e
    obtain ⟨s1, r1⟩ := R g rfl
    obtain ⟨s2, r2⟩ := S g h' e
    refine ⟨s1.trans s2, fun hU hS hK => ?_⟩
    have hK1 : ∀ x, K x → g.alive x = true := fun x hx => s2.alive x (hK x hx)
    rcases r1 hU hS hK1 with ⟨e1, hU1, rfl⟩ | ⟨e1, rfl⟩
    · rcases r2 hU1 (by omega) hK with ⟨e2, hU2, e3⟩ | ⟨e2, e3⟩
      · exact .inl ⟨by omega, hU2, e3⟩
      · exact .inr ⟨by omega, e3⟩
    · have := s2.rc
      exact .inr ⟨by omega, rfl⟩

theorem Runs.bind {a b : Except Fault (Heap α)} {fa fb : Heap α → Except Fault (Heap α)} (R : Runs m U K t h a b)
    (S : ∀ g, Runs m U K t g (fa g) (fb (g.back U t))) : Runs m U K t h (a >>= fa) (b >>= fb) := by
  have := R.seq S
  cases a <;> cases b <;> exact this

/-- A change of other fields first. -/
theorem Runs.after {a b : Except Fault (Heap α)} {g : Heap α} (R : Runs m U K t g a b) (e1 : g.data = h.data)
    (e2 : g.mem = h.mem) : Runs m U K t h a b := by
  have ha : ∀ x, g.alive x = h.alive x := fun x => by simp [Heap.alive, e1]
  have hr : g.rcOf m = h.rcOf m := by simp [Heap.rcOf, e2]
  intro h' e
  obtain ⟨s, r⟩ := R h' e
  refine ⟨⟨fun x hx => by rw [← ha]; exact s.alive x hx, by rw [← hr]; exact s.rc⟩, fun hU hS hK => ?_⟩
  rw [← hr]
  exact r (fun x hx => by rw [e2]; exact hU x hx) (by rw [hr]; exact hS) hK

theorem back_referenced (hU : h.NoHandle U) : (h.back U t).referenced n = h.referenced n := by
  have : (match (h.back U t).mem n with | .strong .. => true | .weak _ => false) =
      (match h.mem n with | .strong .. => true | .weak _ => false) := by
    by_cases e : n ∈ U
    · obtain ⟨u, hu⟩ := hU n e
      simp [Heap.back, e, hu]
    · simp [Heap.back, e]
  unfold Heap.referenced
  show (((_ : Bool) || _) || _) = ((_ || _) || _)
  congr 1
  congr 1

theorem back_strong (hU : h.NoHandle U) : (h.back U t).hasStrongMember u = h.hasStrongMember u := by
  unfold Heap.hasStrongMember
  congr 1
  funext n
  by_cases e : n ∈ U
  · obtain ⟨u, hu⟩ := hU n e
    simp [Heap.back, e, hu]
  · simp [Heap.back, e]

theorem back_setMem (hn : n ∉ U) {v : Membership} : (h.back U t).setMem n v = (h.setMem n v).back U t := by
  simp only [Heap.back, Heap.setMem]
  congr 1
  funext x
  by_cases e : x = n
  · subst e; simp [hn]
  · simp [upd_ne _ _ e]

theorem back_kill (hn : n ∉ U) : (h.back U t).kill n = (h.kill n).back U t := by
  simp only [Heap.back, Heap.kill]
  congr 1
  funext x
  by_cases e : x = n
  · subst e; simp [hn]
  · simp [upd_ne _ _ e]

/-- The destructors of the data behave like that. -/
def DtorUp (m : NodeId) (U : List NodeId) (K : NodeId → Prop) (t : TreeId) (dt : Dtor α) : Prop :=
  ∀ c c' x h, NestUp m K c c' → Runs m U K t h (dt c x h) (dt c' x (h.back U t))

theorem kill_sinks : Sinks m h (h.kill n) := by
  refine ⟨fun x hx => ?_, ?_⟩
  · simp only [Heap.alive, Heap.kill, upd_apply] at hx ⊢
    split at hx
    · cases hx
    · exact hx
  · by_cases e : m = n
    · subst e; simp [Heap.rcOf, Heap.kill]
    · simp [Heap.rcOf, Heap.kill, upd_ne _ _ e]

theorem releaseC_runs (L : Late m U K) (D : DtorUp m U K t dt) (N : NestUp m K c c') :
    ∀ {f : Nat} {pins pins' : List NodeId} {n : NodeId} {h : Heap α}, PinsUp K pins pins' →
    Runs m U K t h (h.releaseC dt c f pins n) ((h.back U t).releaseC dt c' f pins' n)
  | 0, _, _, _, _, _ => fun _ e => by cases e
  | f + 1, pins, pins', n, h, P => by
    unfold Heap.releaseC
    by_cases hc : (!h.alive n || pins.contains n || h.referenced n) = true
    · rw [if_pos hc]
      intro h' e
      cases e
      refine ⟨.refl m h, fun hU _ _ => .inl ⟨rfl, hU, ?_⟩⟩
      rw [if_pos]
      rw [back_referenced hU]
      simp only [Bool.or_eq_true, List.contains_iff_mem] at hc ⊢
      rcases hc with (hc | hc) | hc
      · exact .inl (.inl hc)
      · exact .inl (.inr (P.1 n hc))
      · exact .inr hc
    · rw [if_neg hc]
      simp only
      -- the rest, from the memory without `n`
      have R : Runs m U K t (h.kill n)
          (match dt { c with pins := (h.firstChild n).toList ++ (h.next n).toList ++ pins } n (h.kill n) with
            | .error e => .error e
            | .ok h2 =>
              match (match h.firstChild n with | some x => h2.releaseC dt c f pins x | none => .ok h2) with
              | .error e => .error e
              | .ok h3 => match h.next n with | some x => h3.releaseC dt c f pins x | none => .ok h3)
          (match dt { c' with pins := (h.firstChild n).toList ++ (h.next n).toList ++ pins' } n ((h.kill n).back U t) with
            | .error e => .error e
            | .ok h2 =>
              match (match h.firstChild n with | some x => h2.releaseC dt c' f pins' x | none => .ok h2) with
              | .error e => .error e
              | .ok h3 => match h.next n with | some x => h3.releaseC dt c' f pins' x | none => .ok h3) := by
        refine Runs.seq (D _ _ _ _ (N.withPins (P.append _))) (fun g => ?_)
        refine Runs.seq ?_ (fun g => ?_)
        · cases h.firstChild n with
          | none => exact Runs.id
          | some x => exact releaseC_runs L D N P
        · cases h.next n with
          | none => exact Runs.id
          | some x => exact releaseC_runs L D N P
      intro h' e
      obtain ⟨s, r⟩ := R h' e
      refine ⟨kill_sinks.trans s, fun hU hS hK => ?_⟩
      have hn : ¬ K n := by
        intro hk
        have := s.alive n (hK n hk)
        simp [Heap.alive, Heap.kill] at this
      have hnU : n ∉ U := fun e => hn (L.sub n e)
      have hnm : m ≠ n := fun e => hn (e ▸ L.busy)
      have hrc : (h.kill n).rcOf m = h.rcOf m := by simp [Heap.rcOf, Heap.kill, upd_ne _ _ hnm]
      have hU1 : (h.kill n).NoHandle U := by
        intro x hx
        have : x ≠ n := fun e => hnU (e ▸ hx)
        simpa [Heap.kill, upd_ne _ _ this] using hU x hx
      rw [if_neg]
      · simp only [back_kill hnU]
        rw [← hrc]
        exact r hU1 (by omega) hK
      · rw [back_referenced hU]
        simp only [Bool.or_eq_true, List.contains_iff_mem, not_or] at hc ⊢
        refine ⟨⟨hc.1.1, fun hp => ?_⟩, hc.2⟩
        rcases P.2 n hp with h1 | h1
        · exact hc.1.2 h1
        · exact hn h1

theorem dropStepC_runs (L : Late m U K) (D : DtorUp m U K t dt) (N : NestUp m K c c') {k : Nat} {v : NodeId}
    (P : PinsUp K pins pins') :
    Runs m U K t h (h.dropStepC dt c k pins v) ((h.back U t).dropStepC dt c' k pins' v) := by
  unfold Heap.dropStepC
  have e1 : (h.back U t).parentLink v = h.parentLink v := rfl
  rw [e1]
  cases h.parentLink v with
  | none => exact releaseC_runs L D N P
  | some q =>
    refine Runs.after (g := (h.setNext v none).setFirst q (h.next v)) ?_ rfl rfl
    refine Runs.bind ?_ (fun g => ?_)
    · show Runs m U K t _ (match h.firstChild q with | some x => _ | none => _)
        (match h.firstChild q with | some x => _ | none => _)
      cases h.firstChild q with
      | none => exact Runs.id
      | some x => exact releaseC_runs L D N ((P.cons v).cons q)
    · exact Runs.bind (releaseC_runs L D N (P.cons v)) (fun g => releaseC_runs L D N P)

theorem dropLoopC_runs (L : Late m U K) (D : DtorUp m U K t dt) (N : NestUp m K c c') {k : Nat}
    (P : PinsUp K pins pins') : ∀ {f : Nat} {ev : Option (DftEvent NodeId)} {h : Heap α},
    Runs m U K t h (h.dropLoopC dt c k f pins ev) ((h.back U t).dropLoopC dt c' k f pins' ev)
  | f, none, h => by cases f <;> exact Runs.id
  | 0, some _, h => fun _ e => by cases e
  | f + 1, some ev, h => by
    unfold Heap.dropLoopC
    have e1 : (h.back U t).evNext ev = h.evNext ev := by cases ev <;> rfl
    simp only [e1]
    have P' : PinsUp K (match h.evNext ev with | some e => e.value :: pins | none => pins)
        (match h.evNext ev with | some e => e.value :: pins' | none => pins') := by
      cases h.evNext ev with
      | none => exact P
      | some e => exact P.cons _
    refine Runs.seq ?_ (fun g => dropLoopC_runs L D N P)
    cases ev with
    | opn v => exact releaseC_runs L D N P'
    | cls v => exact dropStepC_runs L D N P'

theorem dropTreeC_runs (L : Late m U K) (D : DtorUp m U K t dt) (N : NestUp m K c c') (P : PinsUp K pins pins') :
    Runs m U K t h (h.dropTreeC dt c pins u) ((h.back U t).dropTreeC dt c' pins' u) := by
  unfold Heap.dropTreeC
  have e1 : (h.back U t).root u = h.root u := rfl
  rw [e1]
  cases h.root u with
  | none => exact Runs.id
  | some r =>
    simp only
    refine Runs.seq (dropLoopC_runs L D (N.withDying u) P) (fun g => ?_)
    exact Runs.after (g := (g.setRoot u none).setGrants u 0) (releaseC_runs L D (N.withDying u) P) rfl rfl

theorem maybeDropTreeC_runs (L : Late m U K) (D : DtorUp m U K t dt) (N : NestUp m K c c') (P : PinsUp K pins pins') :
    Runs m U K t h (h.maybeDropTreeC dt c pins u) ((h.back U t).maybeDropTreeC dt c' pins' u) := by
  unfold Heap.maybeDropTreeC
  have key : h.NoHandle U → (((h.back U t).treeAlive u && (h.back U t).treeRc u == 0 &&
      !(h.back U t).hasStrongMember u) = (h.treeAlive u && h.treeRc u == 0 && !h.hasStrongMember u)) := by
    intro hU; rw [back_strong hU]; rfl
  split
  · rename_i hc
    intro h' e
    obtain ⟨s, r⟩ := dropTreeC_runs L D N P h' e
    refine ⟨s, fun hU hS hK => ?_⟩
    rw [if_pos ((key hU).trans hc)]
    exact r hU hS hK
  · rename_i hc
    intro h' e
    obtain ⟨s, r⟩ := Runs.id (m := m) (U := U) (K := K) (t := t) (h := h) h' e
    refine ⟨s, fun hU hS hK => ?_⟩
    rw [if_neg (by rw [key hU]; exact hc)]
    exact r hU hS hK

theorem relTreeC_runs (L : Late m U K) (D : DtorUp m U K t dt) (N : NestUp m K c c') :
    Runs m U K t h (h.relTreeC dt c u) ((h.back U t).relTreeC dt c' u) :=
  Runs.after (g := h.setTreeRc u (h.treeRc u - 1)) (maybeDropTreeC_runs L D N N.pins) rfl rfl

/-- A handle to another node loses its count. -/
theorem decRefC_runs (L : Late m U K) (D : DtorUp m U K t dt) (N : NestUp m K c c') :
    Runs m U K t h (h.decRefC dt c n) ((h.back U t).decRefC dt c' n) := by
  intro h' e
  unfold Heap.decRefC at e
  split at e
  · cases e
  rename_i hb
  split at e
  · cases e
  rename_i u rc l hm
  -- the memory with the new membership
  have key : ∀ v, (n = m → (match v with | .strong _ r _ => r | .weak _ => 0) ≤ rc) → Sinks m h (h.setMem n v) := by
    intro v hv
    refine ⟨fun x hx => hx, ?_⟩
    by_cases e : m = n
    · subst e
      simp only [Heap.rcOf, Heap.setMem, upd_same, hm]
      exact hv rfl
    · simp [Heap.rcOf, Heap.setMem, upd_ne _ _ e]
  have sink : Sinks m h h' ∧ (n = m → 0 < rc → h'.rcOf m < h.rcOf m) := by
    split at e
    · split at e
      · cases e
      · have s := (maybeDropTreeC_runs L D ((N.withBusy n)) (N.pins.cons n) h' e).1
        refine ⟨(key (.weak (some u)) (fun _ => Nat.zero_le _)).trans s, ?_⟩
        rintro rfl hp
        have h1 := s.rc
        simp only [Heap.rcOf, Heap.setMem, upd_same] at h1
        simp only [Heap.rcOf, hm]
        omega
    · cases e
      refine ⟨key _ (fun _ => Nat.sub_le _ _), ?_⟩
      rintro rfl hp
      simp only [Heap.rcOf, Heap.setMem, upd_same, hm]
      omega
  refine ⟨sink.1, fun hU hS hK => ?_⟩
  by_cases hnm : n = m
  · subst hnm
    have hp : 0 < rc := by simpa [Heap.rcOf, hm] using hS
    refine .inr ⟨sink.2 rfl hp, ?_⟩
    unfold Heap.decRefC
    rw [if_pos (List.contains_iff_mem.2 ((N.busy n).2 (.inr rfl)))]
  · have hnU : n ∉ U := by
      intro hx
      obtain ⟨w, hw⟩ := hU n hx
      rw [hm] at hw; cases hw
    have hrc : ∀ v, (h.setMem n v).rcOf m = h.rcOf m := fun v => by
      simp [Heap.rcOf, Heap.setMem, upd_ne _ _ (Ne.symm hnm)]
    have hU1 : ∀ v, (h.setMem n v).NoHandle U := by
      intro v x hx
      have : x ≠ n := fun e => hnU (e ▸ hx)
      simpa [Heap.setMem, upd_ne _ _ this] using hU x hx
    unfold Heap.decRefC
    rw [if_neg (by
      simp only [List.contains_iff_mem] at hb ⊢
      rw [N.busy]
      rintro (h1 | h1)
      · exact hb h1
      · exact hnm h1)]
    have hmb : (h.back U t).mem n = .strong u rc l := by simp [Heap.back, hnU, hm]
    rw [hmb]
    simp only
    split at e
    · rename_i h0
      rw [if_pos h0]
      split at e
      · cases e
      · rename_i hl
        rw [if_neg hl]
        rw [back_setMem hnU, ← hrc (.weak (some u))]
        exact (maybeDropTreeC_runs L D ((N.withBusy n)) (N.pins.cons n) h' e).2 (hU1 _) (by rw [hrc]; exact hS) hK
    · rename_i h0
      rw [if_neg h0]
      cases e
      exact .inl ⟨hrc _, hU1 _, by rw [back_setMem hnU]⟩

theorem dropLinkC_runs (L : Late m U K) (D : DtorUp m U K t dt) (N : NestUp m K c c') :
    Runs m U K t h (h.dropLinkC dt c n) ((h.back U t).dropLinkC dt c' n) := by
  unfold Heap.dropLinkC
  exact Runs.bind (decRefC_runs L D N) (fun g => releaseC_runs L D N N.pins)

theorem decLock_sinks (e : h.decLock n = .ok h') : h'.data = h.data ∧ (h'.rcOf m = h.rcOf m) ∧
    (∃ u rc l, h.mem n = .strong u rc l) ∧ ∀ x, x ≠ n → h'.mem x = h.mem x := by
  unfold Heap.decLock at e
  split at e
  · cases e
  rename_i u rc l hm
  split at e
  · cases e
  simp only at e
  have key : (h.setMem n (.strong u rc (l - 1))).rcOf m = h.rcOf m := by
    by_cases e : m = n
    · subst e; simp [Heap.rcOf, Heap.setMem, hm]
    · simp [Heap.rcOf, Heap.setMem, upd_ne _ _ e]
  have k2 : ∀ x, x ≠ n → (h.setMem n (.strong u rc (l - 1))).mem x = h.mem x := by
    intro x hx; simp [Heap.setMem, upd_ne _ _ hx]
  split at e
  · split at e
    · cases e
    · cases e; exact ⟨rfl, key, ⟨u, rc, l, hm⟩, k2⟩
  · cases e; exact ⟨rfl, key, ⟨u, rc, l, hm⟩, k2⟩

theorem back_decLock (hn : n ∉ U) (e : h.decLock n = .ok h') : (h.back U t).decLock n = .ok (h'.back U t) := by
  have hmb : (h.back U t).mem n = h.mem n := by simp [Heap.back, hn]
  unfold Heap.decLock at e ⊢
  rw [hmb]
  split at e
  · cases e
  rename_i u rc l hm
  simp only [hm]
  split at e
  · cases e
  rename_i hl
  rw [if_neg hl]
  simp only at e
  rw [back_setMem hn]
  split at e
  · rename_i h0
    rw [if_pos h0]
    show (match Lock.releaseAny ((h.setMem n (.strong u rc (l - 1))).grants u) with | .error e => _ | .ok g => _) = _
    split at e
    · cases e
    · rename_i g hg
      rw [hg]; cases e; rfl
  · rename_i h0
    rw [if_neg h0]; cases e; rfl

theorem dropHandleC_runs (L : Late m U K) (D : DtorUp m U K t dt) (N : NestUp m K c c') {k : Kind} :
    Runs m U K t h (h.dropHandleC dt c n k) ((h.back U t).dropHandleC dt c' n k) := by
  have key : Runs m U K t h (do let h ← h.decLockC c n; h.dropLinkC dt c n)
      (do let h ← (h.back U t).decLockC c' n; h.dropLinkC dt c' n) := by
    intro h' e
    simp only [bind, Except.bind] at e ⊢
    split at e
    · cases e
    rename_i g e1
    unfold Heap.decLockC at e1 ⊢
    split at e1
    · cases e1
    rename_i hb
    obtain ⟨d1, d2, ⟨u, rc, l, hm⟩, d3⟩ := decLock_sinks (m := m) e1
    have ha : ∀ x, g.alive x = h.alive x := fun x => by simp [Heap.alive, d1]
    obtain ⟨s, r⟩ := dropLinkC_runs L D N h' e
    refine ⟨⟨fun x hx => by rw [← ha]; exact s.alive x hx, by rw [← d2]; exact s.rc⟩, fun hU hS hK => ?_⟩
    have hnU : n ∉ U := by
      intro hx
      obtain ⟨w, hw⟩ := hU n hx
      rw [hm] at hw; cases hw
    have hU1 : g.NoHandle U := by
      intro x hx
      rw [d3 x (fun e => hnU (e ▸ hx))]
      exact hU x hx
    have r' := r hU1 (by omega) hK
    by_cases hnm : n = m
    · subst hnm
      rw [if_pos (List.contains_iff_mem.2 ((N.busy n).2 (.inr rfl)))]
      simp only
      have hB : (g.back U t).dropLinkC dt c' n = .error Nest.nested := by
        unfold Heap.dropLinkC Heap.decRefC
        rw [if_pos (List.contains_iff_mem.2 ((N.busy n).2 (.inr rfl)))]
        rfl
      rw [hB] at r'
      rcases r' with ⟨-, -, e3⟩ | ⟨e2, -⟩
      · cases e3
      · exact .inr ⟨by omega, trivial⟩
    · rw [if_neg (by
        simp only [List.contains_iff_mem] at hb ⊢
        rw [N.busy]
        rintro (h1 | h1)
        · exact hb h1
        · exact hnm h1)]
      rw [back_decLock hnU e1]
      simp only
      rw [← d2]
      exact r'
  cases k with
  | plain => exact dropLinkC_runs L D N
  | hot => exact key
  | frozen => exact key

theorem dropTokC_runs (N : NestUp m K c c') {g : Bool} :
    Runs m U K t h (h.dropTokC c g u) ((h.back U t).dropTokC c' g u) := by
  unfold Heap.dropTokC
  rw [N.dying]
  show Runs m U K t h _ (if (h.treeAlive u && !c.dying.contains u) = true then
    match World.unlockTree (h.grants u) g with | .error e => _ | .ok g => _ else _)
  split
  · cases World.unlockTree (h.grants u) g with
    | error e => exact fun _ e => by cases e
    | ok v => exact Runs.after (g := h.setGrants u v) Runs.id rfl rfl
  · exact Runs.id

theorem dropAssetC_runs (L : Late m U K) (D : DtorUp m U K t dt) (N : NestUp m K c c') {a : Asset} :
    Runs m U K t h (h.dropAssetC dt c a) ((h.back U t).dropAssetC dt c' a) := by
  cases a with
  | node k n => exact dropHandleC_runs L D N
  | tree u => exact relTreeC_runs L D N
  | token g u => exact dropTokC_runs N

theorem dropAllC_runs (L : Late m U K) (D : DtorUp m U K t dt) (N : NestUp m K c c') : ∀ {P : List Asset} {h : Heap α},
    Runs m U K t h (h.dropAllC dt c P) ((h.back U t).dropAllC dt c' P)
  | [], h => Runs.id
  | a :: as, h => by
    unfold Heap.dropAllC
    exact Runs.seq (dropAssetC_runs L D N) (fun g => dropAllC_runs L D N)

theorem dtor_up (L : Late m U K) (own : NodeId → List Asset) : ∀ f, DtorUp m U K t (Heap.dtor own f : Dtor α)
  | 0 => fun _ _ _ _ _ _ e => by cases e
  | f + 1 => fun _ _ _ _ N => dropAllC_runs L (dtor_up L own f) N

end Dendron
