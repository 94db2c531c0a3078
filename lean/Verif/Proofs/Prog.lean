import Verif.Model.Prog
import Verif.Spec.Handles
import Verif.Proofs.ReadAll
import Verif.Proofs.SafeStep
import Verif.Proofs.Grow
import Verif.Proofs.SafeAll

/-! Code that uses handles properly behaves on the program state as on the memory. -/

set_option linter.unusedSimpArgs false
set_option linter.unusedVariables false
set_option autoImplicit false

namespace Dendron
variable {α β γ : Type} {w w' : World α} {ch ch' : NodeId → List NodeId} {n : NodeId} {k : Kind}

/-! ### Room -/

theorem Inv.room_of_roomy (I : Inv w ch) (R : w.Roomy) : Room w.heap := by
  intro t ht
  obtain ⟨L, h1, h2, h3, -⟩ := I.locks t ht
  have hlen : L.length ≤ w.heap.nNode := by
    have := nodup_length_sub (M := List.range w.heap.nNode) h1 (by
      intro x hx
      obtain ⟨a, b⟩ := (h2 x).1 hx
      have : w.heap.alive x = true := by
        by_cases e : 0 < w.held .hot x
        · exact I.held_alive e
        · exact I.held_alive (k := .frozen) (by omega)
      exact List.mem_range.2 (I.wf.bound x this))
    simpa using this
  have := R t
  rcases h3 with ⟨-, -, c⟩ | ⟨-, -, c⟩ <;> constructor <;> rw [c] <;> omega

theorem Own.dropLink_nNode {h' : Heap α} (I : Own w) (hk : 0 < w.held .plain n)
    (e : w.heap.dropLink n = .ok h') : h'.nNode = w.heap.nNode := by
  obtain ⟨t, rc, l, hm, ha, hta⟩ := I.tree_of_held hk
  simp only [Heap.dropLink, bind, Except.bind] at e
  split at e
  · cases e
  · rename_i h1 hd
    have I1 : Base h1 ∧ h1.nNode = w.heap.nNode := by
      unfold Heap.decRef at hd
      simp only [hm] at hd
      split at hd
      · split at hd
        · cases hd
        · have B := I.base.setMem (n := n) (m := .weak (some t)) (by intro _ _ _ e; cases e)
          obtain ⟨B, F⟩ := B.maybeDropTree hd
          exact ⟨B, F.nNode⟩
      · simp only [Except.ok.injEq] at hd
        subst hd
        refine ⟨I.base.setMem ?_, rfl⟩
        rintro _ _ _ ⟨⟩
        exact ⟨ha, hta⟩
    obtain ⟨B, F⟩ := I1.1.release e
    exact F.nNode.trans I1.2

theorem Own.dropHandle_nNode {h' : Heap α} (I : Own w) (hk : 0 < w.held k n)
    (e : w.heap.dropHandle n k = .ok h') (J : Inv w ch) : h'.nNode = w.heap.nNode := by
  have main : k ≠ .plain → (do let h ← w.heap.decLock n; h.dropLink n : Except Fault (Heap α)) = .ok h' →
      h'.nNode = w.heap.nNode := by
    intro hkp e
    simp only [bind, Except.bind] at e
    obtain ⟨h1, e1, I1⟩ := I.unbundle hk hkp
    obtain ⟨h2, e2, J2, S⟩ := J.unbundle hk hkp
    rw [e1] at e
    rw [e1] at e2; cases e2
    exact (I1.dropLink_nNode (n := n) (by simp) e).trans S.nNode
  cases k with
  | plain => exact I.dropLink_nNode hk e
  | hot => exact main (by simp) e
  | frozen => exact main (by simp) e


theorem Reach.any (hr : Reach w) : ReachAny w := by
  induction hr with
  | init => exact .init
  | step _ s ih => exact .step ih ⟨s.allowed, s.run⟩

/-! ### Single operations -/

/-- What one operation does. -/
structure Does (w w' : World α) (a b : Handles) : Prop where
  reads : Reads w w'
  reach : Reach w'
  roomy : w'.Roomy
  exch : Exchange w w' a b

theorem count_single (k' : Kind) (m : NodeId) :
    ([(k, n)] : Handles).count (k', m) = if k' = k ∧ m = n then 1 else 0 := by
  by_cases e : k' = k ∧ m = n
  · obtain ⟨rfl, rfl⟩ := e; simp
  · rw [if_neg e, List.count_eq_zero]
    simpa using e

theorem Reach.nav_op (hr : Reach w) (R : w.Roomy) (hk : 0 < w.held k n) (q : Nav) :
    ∃ w' r, w.exec (.nav k q n) = .ok (w', .node r) ∧ w.heap.navTo n q = .ok r ∧
      Does w w' [] (handles k r.toList) := by
  obtain ⟨ch, I⟩ := hr.inv
  obtain ⟨o, e, hm⟩ := I.wf.navTo (I.held_alive hk) q
  have room := I.room_of_roomy R
  cases o with
  | none =>
    have ex : w.exec (.nav k q n) = .ok (w, .node none) := by
      simp [World.exec, e, bind, Except.bind, pure, Except.pure]
    refine ⟨w, none, ex, e, ?_, hr, R, ?_⟩
    · exact .refl w
    · exact ⟨fun _ _ => by simp [handles], rfl, rfl, rfl⟩
  | some m =>
    obtain ⟨h1, h2⟩ := hm m rfl
    obtain ⟨t, ht, -⟩ := I.wf.tree.live n (I.held_alive hk)
    obtain ⟨h', e', I', S⟩ := I.wrap (k := k) h1 (h2.trans ht) (room.lockable I hk ht)
    have ex : w.exec (.nav k q n) = .ok (({ w with heap := h' } : World α).give k m, .node (some m)) := by
      simp [World.exec, e, e', bind, Except.bind, pure, Except.pure]
    have st : w.Step (.nav k q n) (({ w with heap := h' } : World α).give k m) (.node (some m)) :=
      ⟨hk, fun _ _ => trivial, room, ex⟩
    refine ⟨_, some m, ex, e, .step (op := (.nav k q n)) (.refl w) trivial st, .step hr st, ?_, ?_⟩
    · intro t; have := R t; simp only [give_heap, give_grantTok, give_prohTok, S.nNode]; exact this
    · refine ⟨fun k' x => ?_, rfl, rfl, rfl⟩
      simp only [give_held, handles, Option.toList, List.map, count_single, List.count_nil]
      split <;> rfl

theorem Reach.clone_op (hr : Reach w) (R : w.Roomy) (hk : 0 < w.held k n) :
    ∃ w', w.exec (.clone k n) = .ok (w', .unit) ∧ Does w w' [] [(k, n)] := by
  obtain ⟨ch, I⟩ := hr.inv
  obtain ⟨h', e, I', S⟩ := I.cloneHandle hk
  have ex : w.exec (.clone k n) = .ok (({ w with heap := h' } : World α).give k n, .unit) := by
    simp [World.exec, e, bind, Except.bind, pure, Except.pure]
  have st : w.Step (.clone k n) (({ w with heap := h' } : World α).give k n) .unit :=
    ⟨hk, fun _ _ => trivial, I.room_of_roomy R, ex⟩
  refine ⟨_, ex, .step (op := (.clone k n)) (.refl w) trivial st, .step hr st, ?_, ?_⟩
  · intro t; have := R t; simp only [give_heap, give_grantTok, give_prohTok, S.nNode]; exact this
  · refine ⟨fun k' x => ?_, rfl, rfl, rfl⟩
    simp only [give_held, count_single, List.count_nil]
    split <;> rfl

theorem Reach.drop_op (hr : Reach w) (R : w.Roomy) (hk : 0 < w.held k n) :
    ∃ w', w.exec (.drop k n) = .ok (w', .unit) ∧ Does w w' [(k, n)] [] := by
  obtain ⟨ch, I⟩ := hr.inv
  obtain ⟨h', ch', e, I', K⟩ := I.dropHandle hk
  have ex : w.exec (.drop k n) = .ok (({ w with heap := h' } : World α).take k n, .unit) := by
    simp [World.exec, e, bind, Except.bind, pure, Except.pure]
  have st : w.Step (.drop k n) (({ w with heap := h' } : World α).take k n) .unit :=
    ⟨hk, fun _ _ => trivial, I.room_of_roomy R, ex⟩
  have hn := hr.any.own.dropHandle_nNode hk e I
  refine ⟨_, ex, .step (op := (.drop k n)) (.refl w) trivial st, .step hr st, ?_, ?_⟩
  · intro t; have := R t; simp only [take_heap, take_grantTok, take_prohTok, hn]; exact this
  · refine ⟨fun k' x => ?_, rfl, rfl, rfl⟩
    simp only [take_held, count_single, List.count_nil]
    split
    · rename_i e; obtain ⟨rfl, rfl⟩ := e; omega
    · rfl

theorem Reach.plain_op (hr : Reach w) (R : w.Roomy) (hp : k ≠ .plain) (hk : 0 < w.held k n) :
    ∃ w', w.exec (.plainOf k n) = .ok (w', .unit) ∧ Does w w' [] [(.plain, n)] := by
  obtain ⟨ch, I⟩ := hr.inv
  obtain ⟨h', e, I', S⟩ := I.clonePlain hk
  have ex : w.exec (.plainOf k n) = .ok (({ w with heap := h' } : World α).give .plain n, .unit) := by
    simp [World.exec, e, bind, Except.bind, pure, Except.pure]
  have st : w.Step (.plainOf k n) (({ w with heap := h' } : World α).give .plain n) .unit :=
    ⟨⟨hp, hk⟩, fun _ _ => trivial, I.room_of_roomy R, ex⟩
  refine ⟨_, ex, .step (op := (.plainOf k n)) (.refl w) trivial st, .step hr st, ?_, ?_⟩
  · intro t; have := R t; simp only [give_heap, give_grantTok, give_prohTok, S.nNode]; exact this
  · refine ⟨fun k' x => ?_, rfl, rfl, rfl⟩
    simp only [give_held, count_single, List.count_nil]
    split <;> rfl

theorem Exchange.refl (w : World α) (a : Handles) : Exchange w w a a := ⟨fun _ _ => rfl, rfl, rfl, rfl⟩

theorem Exchange.trans {w'' : World α} {a b c d : Handles} (e : Exchange w w' a b)
    (e' : Exchange w' w'' c d) {x y : Handles}
    (h : ∀ z, b.count z + d.count z + x.count z = a.count z + c.count z + y.count z) :
    Exchange w w'' x y := by
  refine ⟨fun k n => ?_, e'.trees.trans e.trees, e'.grantTok.trans e.grantTok,
    e'.prohTok.trans e.prohTok⟩
  have h1 := e.held k n
  have h2 := e'.held k n
  have h3 := h (k, n)
  omega

theorem Reads.trans {w'' : World α} (a : Reads w w') (b : Reads w' w'') : Reads w w'' := by
  induction b with
  | refl => exact a
  | step _ hop s ih => exact .step ih hop s

/-- The borrow state of data is left alone by reading. -/
theorem Reads.mutB (hr : Reach w) (rd : Reads w w') (ha : w.heap.alive n = true)
    (ha' : w'.heap.alive n = true) : w'.heap.mutB n = w.heap.mutB n := by
  induction rd with
  | refl => rfl
  | @step u v op r rd hop s ih =>
    obtain ⟨hu, R⟩ := rd.ok hr
    obtain ⟨ch, I⟩ := hr.inv
    obtain ⟨ch1, I1⟩ := hu.inv
    obtain ⟨ch2, I2, K⟩ := s.inv I1
    have ha1 : u.heap.alive n = true := by
      cases e : u.heap.alive n with
      | true => rfl
      | false =>
        have := K.fresh n (Nat.lt_of_lt_of_le (I.wf.bound n ha) R.nodes) e
        rw [ha'] at this; cases this
    rw [← ih ha1]
    refine K.mutB n ha1 ha' ?_
    intro hx
    cases op <;> first | exact absurd hop id | exact hx

/-! ### Using handles properly -/

namespace Prog

/-- The code `p`, owning the handles `O`, uses only handles it owns and ends owning exactly `out` of its
result. -/
def Uses (out : β → Handles) : Prog α β → Handles → Prop
  | ret b, O => ∀ z, O.count z = (out b).count z
  | fail _, _ => True
  | nav k _ n f, O => (k, n) ∈ O ∧ Uses out (f none) O ∧ ∀ m, Uses out (f (some m)) ((k, m) :: O)
  | clone k n f, O => (k, n) ∈ O ∧ Uses out f ((k, n) :: O)
  | drop k n f, O => (k, n) ∈ O ∧ Uses out f (O.erase (k, n))
  | plain k n f, O => k ≠ .plain ∧ (k, n) ∈ O ∧ Uses out f ((.plain, n) :: O)
  | data k n f, O => (k, n) ∈ O ∧ ∀ r, Uses out (f r) O

theorem mem_of_count {O O' : Handles} (h : ∀ z, O.count z = O'.count z) {x : Kind × NodeId}
    (hx : x ∈ O) : x ∈ O' := List.count_pos_iff.1 (h x ▸ List.count_pos_iff.2 hx)

theorem Uses.congr {out : β → Handles} {p : Prog α β} : ∀ {O O' : Handles},
    (∀ z, O.count z = O'.count z) → Uses out p O → Uses out p O' := by
  induction p with
  | ret b => intro O O' h u z; rw [← h z]; exact u z
  | fail e => intros; trivial
  | nav k q n f ih =>
    intro O O' h u
    refine ⟨mem_of_count h u.1, ih _ h u.2.1, fun m => ih _ ?_ (u.2.2 m)⟩
    intro z; simp only [List.count_cons, h z]
  | clone k n f ih =>
    intro O O' h u
    refine ⟨mem_of_count h u.1, ih ?_ u.2⟩
    intro z; simp only [List.count_cons, h z]
  | drop k n f ih =>
    intro O O' h u
    refine ⟨mem_of_count h u.1, ih ?_ u.2⟩
    intro z; simp only [List.count_erase, h z]
  | plain k n f ih =>
    intro O O' h u
    refine ⟨u.1, mem_of_count h u.2.1, ih ?_ u.2.2⟩
    intro z; simp only [List.count_cons, h z]
  | data k n f ih =>
    intro O O' h u
    exact ⟨mem_of_count h u.1, fun r => ih _ h (u.2 r)⟩

/-- Handles the code does not touch. -/
theorem Uses.frame {out : β → Handles} (F : Handles) {p : Prog α β} : ∀ {O : Handles},
    Uses out p O → Uses (fun b => out b ++ F) p (O ++ F) := by
  induction p with
  | ret b => intro O u z; simp only [List.count_append, u z]
  | fail e => intros; trivial
  | nav k q n f ih =>
    intro O u
    exact ⟨List.mem_append_left _ u.1, ih _ u.2.1, fun m => ih _ (u.2.2 m)⟩
  | clone k n f ih =>
    intro O u
    exact ⟨List.mem_append_left _ u.1, ih u.2⟩
  | drop k n f ih =>
    intro O u
    refine ⟨List.mem_append_left _ u.1, ?_⟩
    have := ih u.2
    rwa [← List.erase_append_left _ u.1] at this
  | plain k n f ih =>
    intro O u
    exact ⟨u.1, List.mem_append_left _ u.2.1, ih u.2.2⟩
  | data k n f ih =>
    intro O u
    exact ⟨List.mem_append_left _ u.1, fun r => ih _ (u.2 r)⟩

theorem Uses.bind {out : β → Handles} {out' : γ → Handles} {f : β → Prog α γ} {p : Prog α β} :
    ∀ {O : Handles}, Uses out p O → (∀ b, Uses out' (f b) (out b)) → Uses out' (p.bind f) O := by
  induction p with
  | ret b => intro O u h; exact (h b).congr (fun z => (u z).symm)
  | fail e => intros; trivial
  | nav k q n f ih => intro O u h; exact ⟨u.1, ih _ u.2.1 h, fun m => ih _ (u.2.2 m) h⟩
  | clone k n f ih => intro O u h; exact ⟨u.1, ih u.2 h⟩
  | drop k n f ih => intro O u h; exact ⟨u.1, ih u.2 h⟩
  | plain k n f ih => intro O u h; exact ⟨u.1, u.2.1, ih u.2.2 h⟩
  | data k n f ih => intro O u h; exact ⟨u.1, fun r => ih _ (u.2 r) h⟩

theorem eval_bind (h : Heap α) (f : β → Prog α γ) (p : Prog α β) :
    (p.bind f).eval h = (match p.eval h with | .ok b => (f b).eval h | .error e => .error e) := by
  induction p with
  | ret b => rfl
  | fail e => rfl
  | nav k q n g ih =>
    simp only [Prog.bind, eval]
    cases h.navTo n q with
    | error e => rfl
    | ok r => exact ih r
  | clone k n g ih => exact ih
  | drop k n g ih => exact ih
  | plain k n g ih => exact ih
  | data k n g ih => exact ih _

/-- The code does the same after reading. -/
theorem eval_reads {out : β → Handles} (hr : Reach w) (rd : Reads w w') {p : Prog α β} :
    ∀ {O : Handles}, Uses out p O → (∀ x ∈ O, w.heap.alive x.2 = true ∧ w'.heap.alive x.2 = true) →
      p.eval w'.heap = p.eval w.heap := by
  obtain ⟨hr', R⟩ := rd.ok hr
  obtain ⟨ch, I⟩ := hr.inv
  obtain ⟨ch', I'⟩ := hr'.inv
  induction p with
  | ret b => intros; rfl
  | fail e => intros; rfl
  | nav k q n f ih =>
    intro O u ha
    obtain ⟨a, a'⟩ := ha _ u.1
    have e1 := (rd.keeps hr a a').2.2 q
    obtain ⟨o, e2, e3⟩ := I.wf.navTo a q
    obtain ⟨o', e2', e3'⟩ := I'.wf.navTo a' q
    rw [e1, e2] at e2'; cases e2'
    simp only [eval, e1, e2]
    cases o with
    | none => exact ih _ u.2.1 ha
    | some m =>
      refine ih _ (u.2.2 m) ?_
      intro x hx
      rcases List.mem_cons.1 hx with rfl | hx
      · exact ⟨(e3 m rfl).1, (e3' m rfl).1⟩
      · exact ha x hx
  | clone k n f ih =>
    intro O u ha
    refine ih u.2 ?_
    intro x hx
    rcases List.mem_cons.1 hx with rfl | hx
    · exact ha _ u.1
    · exact ha x hx
  | drop k n f ih =>
    intro O u ha
    exact ih u.2 (fun x hx => ha x (List.mem_of_mem_erase hx))
  | plain k n f ih =>
    intro O u ha
    refine ih u.2.2 ?_
    intro x hx
    rcases List.mem_cons.1 hx with rfl | hx
    · exact ha (k, n) u.2.1
    · exact ha x hx
  | data k n f ih =>
    intro O u ha
    obtain ⟨a, a'⟩ := ha _ u.1
    simp only [eval, (rd.keeps hr a a').1, rd.mutB hr a a']
    exact ih _ (u.2 _) ha

theorem _root_.Dendron.World.Has.pos {a : Handles} (h : w.Has a) (hx : (k, n) ∈ a) : 0 < w.held k n :=
  Nat.lt_of_lt_of_le (List.count_pos_iff.2 hx) (h k n)

/-- On the program state the code does what it does on the memory, and exchanges its handles. -/
theorem sound {out : β → Handles} {p : Prog α β} : ∀ {w : World α} {O : Handles}, Reach w → w.Roomy →
    w.Has O → Uses out p O →
    match p.eval w.heap with
    | .error e => p.run w = .error e
    | .ok b => ∃ w', p.run w = .ok (w', b) ∧ Does w w' O (out b) := by
  induction p with
  | ret b =>
    intro w O hr R h u
    refine ⟨w, rfl, .refl w, hr, R, ⟨fun k n => ?_, rfl, rfl, rfl⟩⟩
    rw [u (k, n)]
  | fail e => intro w O hr R h u; rfl
  | nav k q n f ih =>
    intro w O hr R h u
    obtain ⟨w1, r, e1, e2, D⟩ := hr.nav_op R (h.pos u.1) q
    have hold : ∀ k' x, w1.held k' x = w.held k' x + (handles k r.toList).count (k', x) := by
      intro k' x; have := D.exch.held k' x; simpa using this
    have u1 : Uses out (f r) (handles k r.toList ++ O) := by
      cases r with
      | none => exact u.2.1
      | some m => exact u.2.2 m
    have h1 : w1.Has (handles k r.toList ++ O) := by
      intro k' x
      rw [List.count_append, hold]
      have := h k' x
      omega
    have same : (f r).eval w1.heap = (f r).eval w.heap := by
      obtain ⟨ch, I⟩ := hr.inv
      obtain ⟨ch1, I1⟩ := D.reach.inv
      refine eval_reads hr D.reads u1 ?_
      intro x hx
      refine ⟨?_, I1.held_alive (h1.pos hx)⟩
      rcases List.mem_append.1 hx with hx | hx
      · cases r with
        | none => simp [handles] at hx
        | some m =>
          simp [handles] at hx
          subst hx
          obtain ⟨o, e3, e4⟩ := I.wf.navTo (I.held_alive (h.pos u.1)) q
          rw [e2] at e3; cases e3
          exact (e4 m rfl).1
      · exact I.held_alive (h.pos hx)
    have := ih r D.reach D.roomy h1 u1
    simp only [eval, e2, run, e1]
    rw [same] at this
    cases e5 : (f r).eval w.heap with
    | error e => rw [e5] at this; exact this
    | ok b =>
      rw [e5] at this
      obtain ⟨w2, e6, D2⟩ := this
      refine ⟨w2, e6, D.reads.trans D2.reads, D2.reach, D2.roomy, D.exch.trans D2.exch ?_⟩
      intro z; simp only [List.count_nil, List.count_append]; omega
  | clone k n f ih =>
    intro w O hr R h u
    obtain ⟨w1, e1, D⟩ := hr.clone_op R (h.pos u.1)
    have h1 : w1.Has ((k, n) :: O) := by
      intro k' x
      have e := D.exch.held k' x
      have := h k' x
      simp only [List.count_nil, Nat.add_zero] at e
      rw [e]
      show ([(k, n)] ++ O).count (k', x) ≤ _
      rw [List.count_append]; omega
    have same : f.eval w1.heap = f.eval w.heap := by
      obtain ⟨ch, I⟩ := hr.inv
      obtain ⟨ch1, I1⟩ := D.reach.inv
      refine eval_reads hr D.reads u.2 ?_
      intro x hx
      refine ⟨?_, I1.held_alive (h1.pos hx)⟩
      rcases List.mem_cons.1 hx with rfl | hx
      · exact I.held_alive (h.pos u.1)
      · exact I.held_alive (h.pos hx)
    have := ih D.reach D.roomy h1 u.2
    simp only [eval, run, e1]
    rw [same] at this
    cases e5 : f.eval w.heap with
    | error e => rw [e5] at this; exact this
    | ok b =>
      rw [e5] at this
      obtain ⟨w2, e6, D2⟩ := this
      refine ⟨w2, e6, D.reads.trans D2.reads, D2.reach, D2.roomy, D.exch.trans D2.exch ?_⟩
      intro z
      show _ = _ + ([(k, n)] ++ O).count z + _
      simp only [List.count_nil, List.count_append]; omega
  | drop k n f ih =>
    intro w O hr R h u
    obtain ⟨w1, e1, D⟩ := hr.drop_op R (h.pos u.1)
    have hc : ∀ z, O.count z = [(k, n)].count z + (O.erase (k, n)).count z := by
      intro z
      by_cases e : z = (k, n)
      · subst e
        rw [List.count_erase_self]
        have := List.count_pos_iff.2 u.1
        simp; omega
      · rw [List.count_erase_of_ne e]
        have : [(k, n)].count z = 0 := by simpa [List.count_eq_zero] using e
        omega
    have h1 : w1.Has (O.erase (k, n)) := by
      intro k' x
      have e := D.exch.held k' x
      have := h k' x
      have := hc (k', x)
      simp only [List.count_nil, Nat.add_zero] at e
      omega
    have same : f.eval w1.heap = f.eval w.heap := by
      obtain ⟨ch, I⟩ := hr.inv
      obtain ⟨ch1, I1⟩ := D.reach.inv
      refine eval_reads hr D.reads u.2 ?_
      intro x hx
      exact ⟨I.held_alive (h.pos (List.mem_of_mem_erase hx)), I1.held_alive (h1.pos hx)⟩
    have := ih D.reach D.roomy h1 u.2
    simp only [eval, run, e1]
    rw [same] at this
    cases e5 : f.eval w.heap with
    | error e => rw [e5] at this; exact this
    | ok b =>
      rw [e5] at this
      obtain ⟨w2, e6, D2⟩ := this
      refine ⟨w2, e6, D.reads.trans D2.reads, D2.reach, D2.roomy, D.exch.trans D2.exch ?_⟩
      intro z
      have := hc z
      simp only [List.count_nil]; omega
  | plain k n f ih =>
    intro w O hr R h u
    obtain ⟨w1, e1, D⟩ := hr.plain_op R u.1 (h.pos u.2.1)
    have h1 : w1.Has ((.plain, n) :: O) := by
      intro k' x
      have e := D.exch.held k' x
      have := h k' x
      simp only [List.count_nil, Nat.add_zero] at e
      rw [e]
      show ([(Kind.plain, n)] ++ O).count (k', x) ≤ _
      rw [List.count_append]; omega
    have same : f.eval w1.heap = f.eval w.heap := by
      obtain ⟨ch, I⟩ := hr.inv
      obtain ⟨ch1, I1⟩ := D.reach.inv
      refine eval_reads hr D.reads u.2.2 ?_
      intro x hx
      refine ⟨?_, I1.held_alive (h1.pos hx)⟩
      rcases List.mem_cons.1 hx with rfl | hx
      · exact I.held_alive (k := k) (h.pos u.2.1)
      · exact I.held_alive (h.pos hx)
    have := ih D.reach D.roomy h1 u.2.2
    simp only [eval, run, e1]
    rw [same] at this
    cases e5 : f.eval w.heap with
    | error e => rw [e5] at this; exact this
    | ok b =>
      rw [e5] at this
      obtain ⟨w2, e6, D2⟩ := this
      refine ⟨w2, e6, D.reads.trans D2.reads, D2.reach, D2.roomy, D.exch.trans D2.exch ?_⟩
      intro z
      show _ = _ + ([(Kind.plain, n)] ++ O).count z + _
      simp only [List.count_nil, List.count_append]; omega
  | data k n f ih =>
    intro w O hr R h u
    simp only [eval, run]
    exact ih _ hr R h (u.2 _)

end Prog
end Dendron
