import Verif.Proofs.CascadeLate
import Verif.Proofs.Memb

/-! The loop of `detach_subtree` that changes the memberships, with the destruction of the old tree in its middle. -/

set_option linter.unusedSimpArgs false
set_option linter.unusedVariables false
set_option autoImplicit false

namespace Dendron
variable {α : Type} {h h' h1 h2 g g' G H X : Heap α} {n x p m : NodeId} {t t' u : TreeId} {c : Nest} {dt : Dtor α}
  {pins pins' : List NodeId} {f v : Nat} {ev e2 : DftEvent NodeId} {evs : List (DftEvent NodeId)}

/-- The release at the end of an iteration frees nothing. -/
def Heap.Stays (h : Heap α) (pins : List NodeId) (n : NodeId) : Prop :=
  (!h.alive n || pins.contains n || h.referenced n) = true

/-- One iteration while there is one more `Tree`. -/
theorem loop_step (e : G.setMembLoop (f + 1) n t' (some ev) = .ok (some H)) (hne : ev ≠ .cls n)
    (hnx : G.evNext ev = some e2) (L : Lives G H) :
    ∃ G1, G1.setMembLoop f n t' (some e2) = .ok (some H) ∧ Lives G1 H ∧ G1.Stays [n, e2.value] ev.value ∧
      ((∃ x, ev = .opn x ∧ G.setTreeCore [x, n, e2.value] x t' = .ok (some G1) ∧ Lives G G1) ∨
        (∃ x, ev = .cls x ∧ G1 = G)) := by
  unfold Heap.setMembLoop at e
  rw [if_neg hne] at e
  simp only [hnx] at e
  cases ev with
  | opn x =>
    simp only at e
    split at e
    · cases e
    · cases e
    · rename_i h1 e1
      split at e
      · cases e
      · rename_i h2 e2
        have b := release_rf e2
        have d := setMembLoop_rf e
        have L1 : Lives G h1 := ⟨fun x hx => b.alive (d.1 x (L.node x hx)), fun u hu => b.tree u (d.2 u (L.tree u hu))⟩
        have a := setTreeCore_rf e1
        have L2 : Lives h1 h2 := ⟨fun x hx => d.1 x (L.node x (a.1 x hx)), fun u hu => d.2 u (L.tree u (a.2 u hu))⟩
        obtain ⟨rfl, k⟩ := release_skip e2 L2
        have L3 : Lives h2 H := ⟨fun x hx => L.node x (a.1 x hx), fun u hu => L.tree u (a.2 u hu)⟩
        exact ⟨h2, e, L3, k, .inl ⟨x, rfl, e1, L1⟩⟩
  | cls x =>
    simp only at e
    split at e
    · cases e
    · rename_i h2 e2
      have d := setMembLoop_rf e
      have L2 : Lives G h2 := ⟨fun x hx => d.1 x (L.node x hx), fun u hu => d.2 u (L.tree u hu)⟩
      obtain ⟨rfl, k⟩ := release_skip e2 L2
      exact ⟨h2, e, L, k, .inr ⟨x, rfl, rfl⟩⟩

/-- One iteration of the run with destructors. -/
theorem loopC_opn (hne : (.opn x : DftEvent NodeId) ≠ .cls n) (hnx : h.evNext (.opn x) = some e2)
    (e1 : h.setTreeCoreC dt Nest.start [x, n, e2.value] x t' = .ok (some h1)) (S : h1.Stays [n, e2.value] x) :
    h.setMembLoopC dt Nest.start (f + 1) n t' (some (.opn x)) = h1.setMembLoopC dt Nest.start f n t' (some e2) := by
  rw [Heap.setMembLoopC]
  rw [if_neg hne]
  simp only [hnx, Nest.start, List.append_nil, List.cons_append, List.nil_append] at e1 ⊢
  rw [e1]
  simp only
  rw [show h1.relFuel = (h1.nNode + 1) + 1 from rfl, releaseC_skip S]

theorem loopC_opn_err (hne : (.opn x : DftEvent NodeId) ≠ .cls n) (hnx : h.evNext (.opn x) = some e2) {e : Fault}
    (e1 : h.setTreeCoreC dt Nest.start [x, n, e2.value] x t' = .error e) :
    h.setMembLoopC dt Nest.start (f + 1) n t' (some (.opn x)) = .error e := by
  rw [Heap.setMembLoopC]
  rw [if_neg hne]
  simp only [hnx, Nest.start, List.append_nil, List.cons_append, List.nil_append] at e1 ⊢
  rw [e1]

theorem loopC_cls (hne : (.cls x : DftEvent NodeId) ≠ .cls n) (hnx : h.evNext (.cls x) = some e2)
    (S : h.Stays [n, e2.value] x) :
    h.setMembLoopC dt Nest.start (f + 1) n t' (some (.cls x)) = h.setMembLoopC dt Nest.start f n t' (some e2) := by
  rw [Heap.setMembLoopC]
  rw [if_neg hne]
  simp only [hnx, Nest.start, List.append_nil, List.cons_append, List.nil_append]
  rw [show h.relFuel = (h.nNode + 1) + 1 from rfl, releaseC_skip S]

theorem back_walk {U : List NodeId} : SameWalk h (h.back U t) := ⟨rfl, rfl, rfl, rfl, rfl, rfl⟩

theorem back_stays {U : List NodeId} (hU : h.NoHandle U) : (h.back U t).Stays pins n ↔ h.Stays pins n := by
  unfold Heap.Stays
  rw [back_referenced hU]; exact Iff.rfl

theorem last_ne (hl : (ev :: e2 :: evs).getLast? = some (.cls n)) (hnd : (ev :: e2 :: evs).Nodup) : ev ≠ .cls n := by
  rintro rfl
  rw [List.getLast?_cons_cons] at hl
  exact (List.nodup_cons.1 hnd).1 (List.mem_of_getLast? hl)

/-- The rest of the loop, when the remaining nodes have no handles: only the memberships change. -/
theorem loop_weak : ∀ (evs : List (DftEvent NodeId)) (f : Nat), EvChain X.evNext evs → evs.getLast? = some (.cls n) →
    evs.Nodup → (opens evs).Nodup → evs.length ≤ f → (∀ x ∈ opens evs, X.mem x = .weak (some t')) →
    (∀ x, X.alive x = true → X.referenced x = true) →
    (X.back (opens evs) t).setMembLoopC dt Nest.start f n t' evs.head? = .ok (some X)
  | [], f, _, hl, _, _, _, _, _ => by simp at hl
  | [e], f, _, hl, _, _, hf, _, _ => by
    simp only [List.getLast?_singleton, Option.some.injEq] at hl
    subst hl
    cases f with
    | zero => simp at hf
    | succ f =>
      simp only [List.head?_cons, Heap.setMembLoopC, if_true]
      congr 2
  | e :: e2 :: evs, f, hc, hl, hnd, ho, hf, hw, hr => by
    have hne := last_ne hl hnd
    cases f with
    | zero => simp at hf
    | succ f =>
      simp only [EvChain] at hc
      have hS : ∀ (U : List NodeId) pins x, X.NoHandle U → (X.back U t).Stays pins x := by
        intro U pins x hU
        rw [back_stays hU]
        unfold Heap.Stays
        cases ha : X.alive x with
        | false => simp
        | true => simp [hr x ha]
      have ih := loop_weak (e2 :: evs) f hc.2 (by simpa [List.getLast?_cons_cons] using hl)
        (List.nodup_cons.1 hnd).2
      simp only [List.head?_cons] at ih ⊢
      have hnx : ∀ U, (X.back U t).evNext e = some e2 := fun U => by rw [back_walk.evNext]; exact hc.1
      cases e with
      | cls x =>
        simp only [opens] at ho hw ⊢
        rw [loopC_cls hne (hnx _) (hS _ _ _ (fun y hy => ⟨_, hw y hy⟩))]
        exact ih ho (by simpa using hf) hw hr
      | opn x =>
        have ho' := List.nodup_cons.1 (show (x :: opens (e2 :: evs)).Nodup from ho)
        have hw' : ∀ y ∈ opens (e2 :: evs), X.mem y = .weak (some t') :=
          fun y hy => hw y (List.mem_cons_of_mem _ hy)
        rw [loopC_opn (h1 := X.back (opens (e2 :: evs)) t) hne (hnx _) ?_ (hS _ _ _ (fun y hy => ⟨_, hw' y hy⟩))]
        · exact ih ho'.2 (by simpa using hf) hw' hr
        · unfold Heap.setTreeCoreC
          rw [if_neg (by simp [Nest.start])]
          have : (X.back (opens (.opn x :: e2 :: evs)) t).mem x = .weak (some t) := by simp [Heap.back, opens]
          rw [this]
          simp only
          congr 2
          unfold Heap.back Heap.setMem
          simp only
          congr 1
          funext y
          by_cases hy : y = x
          · subst hy
            rw [if_neg ho'.1]
            simp only [upd_same]
            exact (hw y (by simp [opens])).symm
          · simp only [upd_ne _ _ hy]
            have : (y ∈ opens (.opn x :: e2 :: evs)) ↔ y ∈ opens (e2 :: evs) := by
              show y ∈ x :: opens (e2 :: evs) ↔ _
              simp [hy]
            simp only [this]

/-- The same in the other run: all that is missing is the memberships of these nodes. -/
theorem loop_behind : ∀ (evs : List (DftEvent NodeId)) (f : Nat) (G : Heap α), EvChain G.evNext evs →
    evs.getLast? = some (.cls n) → evs.Nodup → (opens evs).Nodup → (∀ x ∈ opens evs, G.mem x = .weak (some t)) →
    G.setMembLoop f n t' evs.head? = .ok (some H) → Lives G H →
    G = H.back (opens evs) t ∧ ∀ x ∈ opens evs, H.mem x = .weak (some t')
  | [], f, G, _, hl, _, _, _, _, _ => by simp at hl
  | [e], f, G, _, hl, _, _, _, hT, _ => by
    simp only [List.getLast?_singleton, Option.some.injEq] at hl
    subst hl
    cases f with
    | zero => cases hT
    | succ f =>
      simp only [List.head?_cons, Heap.setMembLoop, if_true] at hT
      cases hT
      exact ⟨by simp [Heap.back, opens], by simp [opens]⟩
  | e :: e2 :: evs, f, G, hc, hl, hnd, ho, hw, hT, L => by
    have hne := last_ne hl hnd
    cases f with
    | zero => cases hT
    | succ f =>
      simp only [EvChain] at hc
      simp only [List.head?_cons] at hT
      obtain ⟨G1, i1, i2, i3, i4⟩ := loop_step hT hne hc.1 L
      have ih := fun hE => loop_behind (e2 :: evs) f G1 hE (by simpa [List.getLast?_cons_cons] using hl)
        (List.nodup_cons.1 hnd).2
      rcases i4 with ⟨x, rfl, j1, j2⟩ | ⟨x, rfl, rfl⟩
      · obtain ⟨k1, k2, k3⟩ := setTreeCore_walk j1 j2
        have ho' := List.nodup_cons.1 (show (x :: opens (e2 :: evs)).Nodup from ho)
        have hx : G.mem x = .weak (some t) := hw x (by simp [opens])
        have hw' : ∀ y ∈ opens (e2 :: evs), G1.mem y = .weak (some t) := by
          intro y hy
          rw [k2 y (fun e => ho'.1 (e ▸ hy))]; exact hw y (List.mem_cons_of_mem _ hy)
        obtain ⟨l1, l2⟩ := ih (by rw [k1.evNext]; exact hc.2) ho'.2 hw' i1 i2
        have e1 : G1 = G.setMem x (.weak (some t')) := by
          unfold Heap.setTreeCore at j1
          rw [hx] at j1
          cases j1; rfl
        refine ⟨?_, fun y hy => ?_⟩
        · have : G = G1.setMem x (.weak (some t)) := by
            have hm : upd (upd G.mem x (.weak (some t'))) x (.weak (some t)) = G.mem := by
              funext y
              by_cases hy : y = x
              · subst hy; simp [hx]
              · simp [upd_ne _ _ hy]
            rw [e1]
            unfold Heap.setMem
            simp only [hm]
          rw [this, l1]
          unfold Heap.back Heap.setMem
          simp only
          congr 1
          funext y
          by_cases hy : y = x
          · subst hy; simp [opens]
          · simp only [upd_ne _ _ hy]
            have : (y ∈ opens (.opn x :: e2 :: evs)) ↔ y ∈ opens (e2 :: evs) := by
              show y ∈ x :: opens (e2 :: evs) ↔ _
              simp [hy]
            simp only [this]
        · rcases List.mem_cons.1 (show y ∈ x :: opens (e2 :: evs) from hy) with rfl | hy
          · have : (H.back (opens (e2 :: evs)) t).mem y = .weak (some t') := by rw [← l1, e1]; simp [Heap.setMem]
            simpa [Heap.back, ho'.1] using this
          · exact l2 y hy
      · exact ih hc.2 ho hw i1 i2

/-- All memberships name the new tree in the end. -/
theorem loop_memb : ∀ (evs : List (DftEvent NodeId)) (f : Nat) (G : Heap α), EvChain G.evNext evs →
    evs.getLast? = some (.cls n) → evs.Nodup → (opens evs).Nodup →
    G.setMembLoop f n t' evs.head? = .ok (some H) → Lives G H →
    (∀ x ∈ opens evs, (G.mem x).moveTo t' = H.mem x) ∧ ∀ x, x ∉ opens evs → H.mem x = G.mem x
  | [], f, G, _, hl, _, _, _, _ => by simp at hl
  | [e], f, G, _, hl, _, _, hT, _ => by
    simp only [List.getLast?_singleton, Option.some.injEq] at hl
    subst hl
    cases f with
    | zero => cases hT
    | succ f =>
      simp only [List.head?_cons, Heap.setMembLoop, if_true] at hT
      cases hT
      exact ⟨by simp [opens], fun _ _ => rfl⟩
  | e :: e2 :: evs, f, G, hc, hl, hnd, ho, hT, L => by
    have hne := last_ne hl hnd
    cases f with
    | zero => cases hT
    | succ f =>
      simp only [EvChain] at hc
      simp only [List.head?_cons] at hT
      obtain ⟨G1, i1, i2, i3, i4⟩ := loop_step hT hne hc.1 L
      have ih := fun hE => loop_memb (e2 :: evs) f G1 hE (by simpa [List.getLast?_cons_cons] using hl)
        (List.nodup_cons.1 hnd).2
      rcases i4 with ⟨x, rfl, j1, j2⟩ | ⟨x, rfl, rfl⟩
      · obtain ⟨k1, k2, k3⟩ := setTreeCore_walk j1 j2
        have ho' := List.nodup_cons.1 (show (x :: opens (e2 :: evs)).Nodup from ho)
        obtain ⟨l1, l2⟩ := ih (by rw [k1.evNext]; exact hc.2) ho'.2 i1 i2
        refine ⟨fun y hy => ?_, fun y hy => ?_⟩
        · rcases List.mem_cons.1 (show y ∈ x :: opens (e2 :: evs) from hy) with rfl | hy
          · rw [l2 y ho'.1]; exact k3
          · rw [← l1 y hy, k2 y (fun e => ho'.1 (e ▸ hy))]
        · have hy' : y ∉ x :: opens (e2 :: evs) := hy
          rw [List.mem_cons, not_or] at hy'
          rw [l2 y hy'.2, k2 y hy'.1]
      · exact ih hc.2 ho i1 i2

/-- What is known about the end of the run without the additional `Tree`: `H` is the heap at the end of the loop
while there is one, and dropping it then leads to `g`. -/
structure Aftermath (K : NodeId → Prop) (dt : Dtor α) (t t' : TreeId) (H g : Heap α) : Prop where
  run : H.relTreeC dt Nest.start t = .ok g
  alive : ∀ x, K x → g.alive x = true
  memb : ∀ x, K x → g.memTree x = some t'
  refs : ∀ x, g.alive x = true → g.referenced x = true

theorem loop_late {K : NodeId → Prop} {own : NodeId → List Asset} {F : Nat} {E : List NodeId} {rc l : Nat}
    (A : Aftermath K (Heap.dtor own F) t t' H g) (hrc : 0 < rc) :
    ∀ (evs : List (DftEvent NodeId)) (f : Nat) (G : Heap α) (D : List NodeId), EvChain G.evNext evs →
    EvChain g.evNext evs → evs.getLast? = some (.cls n) → evs.Nodup → (opens evs).Nodup → evs.length ≤ f →
    (∀ e ∈ evs, K e.value) → opens evs = D ++ m :: E → G.mem m = .strong t rc l → m < G.nNode →
    (∀ x ∈ opens evs, G.memTree x = some t) → (∀ x ∈ E, G.mem x = .weak (some t)) →
    G.setMembLoop f n t' evs.head? = .ok (some H) → Lives G H →
    (g.rcOf m = H.rcOf m ∧ (G.setTreeRc t (H.treeRc t - 1)).setMembLoopC (Heap.dtor own F) Nest.start f n t' evs.head? =
        .ok (some g)) ∨
      (g.rcOf m < H.rcOf m ∧ (G.setTreeRc t (H.treeRc t - 1)).setMembLoopC (Heap.dtor own F) Nest.start f n t' evs.head? =
        .error Nest.nested)
  | [], f, G, D, _, _, hl, _, _, _, _, _, _, _, _, _, _, _ => by simp at hl
  | [e], f, G, D, _, _, hl, _, _, _, _, hD, _, _, _, _, _, _ => by
    simp only [List.getLast?_singleton, Option.some.injEq] at hl
    subst hl
    simp [opens] at hD
  | e :: e2 :: evs, f, G, D, hc, hcg, hl, hnd, ho, hf, hK, hD, hm, hmb, hmt, hE, hT, L => by
    have hne := last_ne hl hnd
    cases f with
    | zero => cases hT
    | succ f =>
      simp only [EvChain] at hc hcg
      simp only [List.head?_cons] at hT
      obtain ⟨G1, i1, i2, i3, i4⟩ := loop_step hT hne hc.1 L
      have hl' : (e2 :: evs).getLast? = some (.cls n) := by simpa [List.getLast?_cons_cons] using hl
      have hnd' := (List.nodup_cons.1 hnd).2
      have hf' : (e2 :: evs).length ≤ f := by simpa using hf
      have hK' : ∀ e ∈ e2 :: evs, K e.value := fun e he => hK e (List.mem_cons_of_mem _ he)
      have hKn : K n := by
        have := hK _ (List.mem_of_getLast? hl); exact this
      have ih := fun D hE' => loop_late (E := E) (l := l) A hrc (e2 :: evs) f G1 D hE' hcg.2 hl' hnd'
      simp only [List.head?_cons] at ih ⊢
      rcases i4 with ⟨x, rfl, j1, j2⟩ | ⟨x, rfl, rfl⟩
      · obtain ⟨k1, k2, k3⟩ := setTreeCore_walk j1 j2
        have ho' := List.nodup_cons.1 (show (x :: opens (e2 :: evs)).Nodup from ho)
        have hc' : EvChain G1.evNext (e2 :: evs) := by rw [k1.evNext]; exact hc.2
        have hmt' : ∀ y ∈ opens (e2 :: evs), G1.memTree y = some t := by
          intro y hy
          have : G1.mem y = G.mem y := k2 y (fun e => ho'.1 (e ▸ hy))
          simp only [Heap.memTree, this]
          exact hmt y (List.mem_cons_of_mem _ hy)
        have hKx : K x := hK (.opn x) (by simp)
        cases D with
        | nil =>
          have hD' : x = m ∧ opens (e2 :: evs) = E := by
            have : x :: opens (e2 :: evs) = m :: E := hD
            simpa using this
          obtain ⟨rfl, hD'⟩ := hD'
          have hxE : x ∉ E := hD' ▸ ho'.1
          have hE1 : ∀ y ∈ opens (e2 :: evs), G1.mem y = .weak (some t) := by
            intro y hy
            rw [k2 y (fun e => ho'.1 (e ▸ hy))]; exact hE y (hD' ▸ hy)
          obtain ⟨b1, b2⟩ := loop_behind (e2 :: evs) f G1 hc' hl' hnd' ho'.2 hE1 i1 i2
          rw [hD'] at b1 b2
          have hKE : ∀ y ∈ E, K y := by
            intro y hy
            have : ∀ (l : List (DftEvent NodeId)), y ∈ opens l → ∃ e ∈ l, e.value = y := by
              intro l
              induction l with
              | nil => simp [opens]
              | cons a l ih =>
                cases a with
                | opn z =>
                  intro hz
                  rcases List.mem_cons.1 (show y ∈ z :: opens l from hz) with rfl | hz
                  · exact ⟨_, List.mem_cons_self, rfl⟩
                  · obtain ⟨e, he, h2⟩ := ih hz
                    exact ⟨e, List.mem_cons_of_mem _ he, h2⟩
                | cls z =>
                  intro hz
                  obtain ⟨e, he, h2⟩ := ih hz
                  exact ⟨e, List.mem_cons_of_mem _ he, h2⟩
            obtain ⟨e, he, rfl⟩ := this (e2 :: evs) (hD'.symm ▸ hy)
            exact hK' e he
          have LT : Late x E K := ⟨hKE, hKx, hxE⟩
          have R := maybeDropTreeC_runs (t := t) (h := H.setTreeRc t (H.treeRc t - 1)) (u := t) (c := Nest.start)
            (c' := { Nest.start with busy := [x] }) (pins := []) (pins' := [x, n, e2.value]) LT (dtor_up LT own F)
            ⟨⟨fun _ h => h, fun _ h => .inl h⟩, by simp [Nest.start], rfl⟩
            ⟨by simp, fun y hy => by
              simp only [List.mem_cons, List.not_mem_nil, or_false] at hy
              rcases hy with rfl | rfl | rfl
              · exact .inr hKx
              · exact .inr hKn
              · exact .inr (hK' e2 (by simp))⟩
          have hHm : H.mem x = .strong t' rc l := by
            have : (H.back E t).mem x = .strong t' rc l := by rw [← b1, ← k3, hm]; rfl
            simpa [Heap.back, hxE] using this
          have hrcH : H.rcOf x = rc := by simp [Heap.rcOf, hHm]
          obtain ⟨-, r⟩ := R g A.run
          have last := setTreeCore_last (v := H.treeRc t - 1) (dt := Heap.dtor own F) (pins' := [x, n, e2.value]) j1 j2 hm
          have eG : G1.setTreeRc t (H.treeRc t - 1) = (H.setTreeRc t (H.treeRc t - 1)).back E t := by
            rw [b1]; rfl
          rw [eG] at last
          have hnx : (G.setTreeRc t (H.treeRc t - 1)).evNext (.opn x) = some e2 := hc.1
          rcases r (fun y hy => ⟨_, b2 y hy⟩) (by show 0 < H.rcOf x; omega) (A.alive) with ⟨q1, q2, q3⟩ | ⟨q1, q2⟩
          · left
            refine ⟨q1, ?_⟩
            rw [q3] at last
            simp only at last
            have hw : ∀ y ∈ E, g.mem y = .weak (some t') := by
              intro y hy
              obtain ⟨u, hu⟩ := q2 y hy
              have := A.memb y (hKE y hy)
              rw [hu]
              simp only [Heap.memTree, hu] at this
              rw [this]
            rw [loopC_opn hne hnx last]
            · rw [← hD'] at hw ⊢
              exact loop_weak (e2 :: evs) f hcg.2 hl' hnd' ho'.2 hf' hw A.refs
            · rw [back_stays q2]
              unfold Heap.Stays
              have := A.alive x hKx
              simp [this, A.refs x this]
          · right
            refine ⟨q1, ?_⟩
            rw [q2] at last
            simp only at last
            exact loopC_opn_err hne hnx last
        | cons d D =>
          have hD' : x = d ∧ opens (e2 :: evs) = D ++ m :: E := by
            have : x :: opens (e2 :: evs) = d :: (D ++ m :: E) := hD
            simpa using this
          obtain ⟨rfl, hD'⟩ := hD'
          have hmx : m ≠ x := by
            rintro rfl
            exact ho'.1 (by rw [hD']; simp)
          have low := setTreeCore_low (v := H.treeRc t - 1) (dt := Heap.dtor own F) (pins' := [x, n, e2.value]) j1 j2
            (hmt x (by simp [opens])) hm hmx hmb
          have hnx : (G.setTreeRc t (H.treeRc t - 1)).evNext (.opn x) = some e2 := hc.1
          rw [loopC_opn hne hnx low i3]
          refine ih D hc' ho'.2 hf' hK' hD' (by rw [k2 m hmx]; exact hm) (by rw [k1.nNode]; exact hmb) hmt' ?_ i1 i2
          intro y hy
          rw [k2 y ?_]
          · exact hE y hy
          · rintro rfl
            exact ho'.1 (by rw [hD']; simp [hy])
      · have hnx : (G1.setTreeRc t (H.treeRc t - 1)).evNext (.cls x) = some e2 := hc.1
        rw [loopC_cls hne hnx i3]
        exact ih D hc.2 ho hf' hK' hD hm hmb hmt hE i1 i2

end Dendron
