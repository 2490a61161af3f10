import Verif.Lemmas.Total
import Verif.Props.Net

/-!
# C113: relationships that always make sense can always be assigned
-/

namespace Verif

open Net Graph Relation Macid

/-- **C113** Take an acyclic network without relationships and announce for every node the outcomes it may take.  If every node gets
a relationship that respects the announcement then `add_cpds` succeeds, in whatever order the relationships are given.  The network is
complete and sound, its columns sum to one, every node has outcomes, all of them announced, and the conditional probability of an
outcome is the one the relationship states, or an even share of what it leaves open. -/
theorem C113_assignable {net : Net} (hf : net.Fresh) (hw : net.g.WF) {T : Node → List Outcome} {l : List (Node × Rel)}
    (hnd : (l.map (·.1)).Nodup) (hall : ∀ v, v ∈ l.map (·.1) ↔ v ∈ net.g.nodes) (hr : ∀ q ∈ l, q.2.Respects net.g T q.1) :
    ∃ net', net.addCpds l = (net', .ok ()) ∧ net'.m = net.m ∧ net'.base = net.base ∧ net'.Good ∧ net'.Normalised ∧
      (∀ v ∈ net.g.nodes, net'.dom v ≠ [] ∧ ∀ x ∈ net'.dom v, x ∈ T v) ∧
      (∀ q ∈ l, ∀ a, net'.InDom a → ∃ d, q.2.Says (argsOf net.g q.1 a) d ∧ net'.kernel q.1 a = share (net'.dom q.1) d (a q.1)) ∧
      (∀ v o, (v, .seq o) ∈ l → net'.dom v = o) ∧
      (∀ q ∈ l, (∀ o, q.2 ≠ .seq o) → (net'.dom q.1).Pairwise (· < ·) ∧ ∀ x, x ∈ net'.dom q.1 ↔
        ∃ a d, (∀ p, net.g.Edge p q.1 → a p ∈ net'.dom p) ∧ q.2.Says (argsOf net.g q.1 a) d ∧ x ∈ d.keys) ∧
      (net.m.Consistent → net.base = Macid.new ∨ net.base = Macid.newCid → net.Staffed → net'.Usable) := by
  let rel : Node → Rel := fun v => (Dict.get? l v).getD (.seq [])
  have hrel : ∀ v ∈ net.g.nodes, Dict.get? l v = some (rel v) := by
    intro v hv
    obtain ⟨r, hr⟩ := (Dict.mem_keys (d := l)).1 ((hall v).2 hv)
    simp [rel, hr]
  have hrelq : ∀ q ∈ l, q.1 ∈ net.g.nodes ∧ rel q.1 = q.2 := by
    intro q hq
    have : Dict.get? l q.1 = some q.2 := Dict.get?_of_mem hnd hq
    exact ⟨(hall _).1 (List.mem_map.2 ⟨q, hq, rfl⟩), by simp [rel, this]⟩
  obtain ⟨C, hC⟩ := exists_made hw (T := T) (rel := rel) (fun v hv => hr _ (Dict.mem_of_get? (hrel v hv)))
  let D : Dict Node (List Outcome) := net.g.nodes.map (fun u => (u, (C u).domain))
  have hC : ∀ v ∈ net.g.nodes, MadeBy net.g D v (rel v) (C v) ∧ ∀ x ∈ (C v).domain, x ∈ T v := hC
  have hD : ∀ v ∈ net.g.nodes, D.get? v = some (C v).domain := by
    intro v hv
    simp only [D]
    rw [get?_map_pair (h := fun u => (C u).domain), if_pos hv]
  obtain ⟨net', a1, a2, a3, a4, a5, a6⟩ := assemble hf hw (C := C) (D := D) (l := l) hD hnd hall
    (fun v r hv => by
      have hvn := (hall v).1 ((Dict.mem_keys (d := l)).2 ⟨r, hv⟩)
      have := hrel v hvn
      rw [hv] at this
      cases this
      exact (hC v hvn).1.made) (fun v hv => (hC v hv).1.fits) (fun v hv => (hC v hv).1.wf)
  have hgood : net'.Good := a6 (fun v c1 hv _ => (hr _ (Dict.mem_of_get? hv)).elim)
  have hg : net'.g = net.g := congrArg Macid.g a2
  have hdom : ∀ v ∈ net.g.nodes, net'.dom v = (C v).domain := by
    intro v hv
    have := (a4 v hv).2
    rw [hD v hv] at this
    exact dom_eq this
  have hwithin : ∀ v ∈ net.g.nodes, ∀ a, Within net.g D v a ↔ ∀ p, net.g.Edge p v → a p ∈ net'.dom p := by
    intro v hv a
    constructor <;> intro h p hp
    · obtain ⟨d, q1, q2⟩ := h p hp
      have hpn := (hw.edgeNodes p v hp).1
      rw [hD p hpn] at q1
      cases q1
      rw [hdom p hpn]
      exact q2
    · have hpn := (hw.edgeNodes p v hp).1
      exact ⟨_, hD p hpn, by rw [← hdom p hpn]; exact h p hp⟩
  have hwi : ∀ v ∈ net.g.nodes, ∀ a, net'.InDom a → Within net.g D v a := by
    intro v hv a ha
    rw [hwithin v hv]
    intro p hp
    exact ha p (by rw [hg]; exact (hw.edgeNodes p v hp).1)
  have hker : ∀ v ∈ net.g.nodes, ∀ a : Assign, net'.kernel v a = ((C v).prob D ((net.g.parents v).map a) (a v)).getD 0 := by
    intro v hv a
    unfold kernel
    rw [(a4 v hv).1]
    simp only
    rw [(hC v hv).1.evidence, prob_congr (dom := D) (dom' := net'.domain) (c := C v) (fun p hp => by
      rw [(hC v hv).1.evidence] at hp
      exact (a4 p (hw.edgeNodes p v (Graph.mem_parents.1 hp)).1).2)]
  have hn : net'.Normalised := by
    intro v hv a ha
    rw [hg] at hv
    obtain ⟨d, _, q2, q3, q4⟩ := (hC v hv).1.prob a (hwi v hv a ha)
    refine ⟨?_, ?_⟩
    · rw [hker v hv, q2 (a v) (by rw [← hdom v hv]; exact ha v (by rw [hg]; exact hv))]
      exact q3 _
    · rw [hdom v hv, ← q4]
      congr 1
      apply List.map_congr_left
      intro x hx
      rw [hker v hv, Assign.upd_same]
      have : (net.g.parents v).map (Assign.upd a v x) = (net.g.parents v).map a := by
        apply List.map_congr_left
        intro p hp
        rw [Assign.upd_ne]
        rintro rfl
        exact hw.acyclic p (.single (Graph.mem_parents.1 hp))
      rw [this, q2 x hx]
      rfl
  refine ⟨net', a1, a2, a3, hgood, hn, fun v hv => ?_, fun q hq a ha => ?_, fun v o ho => ?_, fun q hq hs => ?_, fun hm hb hst => ?_⟩
  · rw [hdom v hv]
    exact ⟨(hC v hv).1.nonempty, (hC v hv).2⟩
  · obtain ⟨hv, e⟩ := hrelq q hq
    obtain ⟨d, q1, q2, _⟩ := (hC _ hv).1.prob a (hwi _ hv a ha)
    rw [e] at q1
    refine ⟨d, q1, ?_⟩
    rw [hker _ hv, hdom _ hv, q2 _ (by rw [← hdom _ hv]; exact ha _ (by rw [hg]; exact hv))]
    rfl
  · obtain ⟨hv, e⟩ := hrelq _ ho
    rw [hdom _ hv]
    exact (hC _ hv).1.listed o e
  · obtain ⟨hv, e⟩ := hrelq q hq
    obtain ⟨q1, q2⟩ := (hC _ hv).1.inferred (by rw [e]; exact hs)
    rw [hdom _ hv]
    refine ⟨q1, fun x => ?_⟩
    rw [q2, e]
    simp only [hwithin _ hv]
  · refine ⟨hgood, hn, by rw [a2]; exact hm, by rw [a3]; exact hb, ?_⟩
    refine ⟨fun a => by rw [a2]; exact hst.both a, fun a ha => ?_⟩
    rw [a2] at ha ⊢
    rw [a3]
    exact hst.owns a ha

/-- **C113** Nor does it fail half way: assigning any of the relationships, in any order, leaves no error behind. -/
theorem C113_any_part {net : Net} (hf : net.Fresh) (hw : net.g.WF) {T : Node → List Outcome} {l l' : List (Node × Rel)}
    (hnd : (l.map (·.1)).Nodup) (hall : ∀ v, v ∈ l.map (·.1) ↔ v ∈ net.g.nodes) (hr : ∀ q ∈ l, q.2.Respects net.g T q.1)
    (hsub : ∃ rest, (l' ++ rest).Perm l) :
    ∃ net', net.addCpds l' = (net', .ok ()) ∧ net'.m = net.m := by
  obtain ⟨rest, hp⟩ := hsub
  obtain ⟨net2, h2, _⟩ := C113_assignable hf hw (T := T) (l := l' ++ rest) ((hp.map _).nodup_iff.2 hnd)
    (fun v => by rw [(hp.map _).mem_iff]; exact hall v) (fun q hq => hr q (hp.mem_iff.1 hq))
  have : ∀ (xs : List (Node × Rel)) (n n2 : Net), n.addCpds (xs ++ rest) = (n2, .ok ()) → ∃ n', n.addCpds xs = (n', .ok ()) ∧ n'.m = n.m := by
    intro xs
    induction xs with
    | nil => intro n n2 _; exact ⟨n, rfl, rfl⟩
    | cons q xs ih =>
      intro n n2 h
      simp only [List.cons_append, addCpds] at h ⊢
      have hm := set_m (net := n) (v := q.1) (r := q.2)
      generalize n.set q.1 q.2 = y at h hm ⊢
      obtain ⟨n1, e⟩ := y
      cases e with
      | error e => simp at h
      | ok u =>
        obtain ⟨n', q1, q2⟩ := ih n1 n2 h
        exact ⟨n', q1, q2.trans hm.1⟩
  exact this l' net net2 h2

/-- **C113** A function that returns plain outcomes makes a deterministic variable: the outcome it returns has probability one. -/
theorem C113_plain_function {net net' : Net} {T : Node → List Outcome} {l : List (Node × Rel)} (hf : net.Fresh) (hw : net.g.WF)
    (hnd : (l.map (·.1)).Nodup) (hall : ∀ v, v ∈ l.map (·.1) ↔ v ∈ net.g.nodes) (hr : ∀ q ∈ l, q.2.Respects net.g T q.1)
    (h : net.addCpds l = (net', .ok ())) {v : Node} {f : Func} (hv : (v, .func f) ∈ l) {φ : PV → Outcome}
    (hφ : ∀ pv, CalledWith net.g T v pv → f pv = .ok (.val (φ pv))) {a : Assign} (ha : net'.InDom a) :
    net'.kernel v a = if a v = φ (argsOf net.g v a) then 1 else 0 := by
  obtain ⟨net2, h1, h2, _, _, _, h3, h4, _⟩ := C113_assignable hf hw hnd hall hr
  rw [h] at h1
  cases h1
  obtain ⟨d, q1, q2⟩ := h4 _ hv a ha
  simp only at q1 q2
  have hcall : CalledWith net.g T v (argsOf net.g v a) := by
    intro p
    constructor
    · intro hp
      have hpn := (hw.edgeNodes p v hp).1
      exact ⟨a p, (h3 p hpn).2 _ (ha p (by rw [show net'.g = net.g from congrArg Macid.g h2]; exact hpn)), by
        simp [argsOf, Graph.mem_parents.2 hp]⟩
    · intro hp
      have : p ∉ net.g.parents v := fun h => hp (Graph.mem_parents.1 h)
      simp [argsOf, this]
  have hd : d = [(φ (argsOf net.g v a), some 1)] := by
    refine Returns.unique q1 (.inr ⟨_, hφ _ hcall, rfl⟩)
  rw [q2, hd]
  by_cases e : a v = φ (argsOf net.g v a)
  · simp [share, given, Dict.get?, e]
  · have e' : φ (argsOf net.g v a) ≠ a v := fun h => e h.symm
    simp [share, given, Dict.get?, e, e', givenMass]

/-- two outcomes for every node -/
def exAnnounced : Node → List Outcome := fun _ => [0, 1]

theorem ex_respects : ∀ q ∈ Ex.rels, q.2.Respects Ex.net0.g exAnnounced q.1 := by
  intro q hq
  simp only [Ex.rels, List.mem_cons, List.not_mem_nil, or_false] at hq
  rcases hq with rfl | rfl | rfl
  · intro pv _
    generalize hy : (if pv "A" = pv "D" then (1 : Outcome) else 0) = y
    have hy' : y = 0 ∨ y = 1 := by rw [← hy]; split <;> simp
    refine ⟨[(y, some 1)], .inr ⟨y, by simp [Ex.utility, hy], rfl⟩, ⟨by simp [Dict.keys], fun x p h => ?_, .inl (by simp [givenMass])⟩, ?_⟩
    · simp only [given, Dict.get?] at h
      split at h
      · simp only [Option.join_some, Option.some.injEq] at h
        rw [← h]; norm_num
      · simp at h
    · intro x hx
      simp only [Dict.keys, List.map_cons, List.map_nil, List.mem_singleton] at hx
      rw [hx]
      simpa [exAnnounced] using hy'
  · exact ⟨by simp, by decide +kernel, by simp [exAnnounced]⟩
  · refine ⟨⟨by decide +kernel, fun x p h => ?_, .inl (by norm_num [givenMass])⟩, by simp [exAnnounced, Dict.keys]⟩
    simp only [given, Dict.get?] at h
    split at h
    · simp only [Option.join_some, Option.some.injEq] at h
      rw [← h]; norm_num
    · split at h
      · simp only [Option.join_some, Option.some.injEq] at h
        rw [← h]; norm_num
      · simp at h

/-- The hypotheses hold for a network with a given distribution, a decision and a function, children listed before parents. -/
example : Ex.net0.Fresh ∧ Ex.net0.g.WF ∧ (Ex.rels.map (·.1)).Nodup ∧ (∀ v, v ∈ Ex.rels.map (·.1) ↔ v ∈ Ex.net0.g.nodes) ∧
    (∀ q ∈ Ex.rels, q.2.Respects Ex.net0.g exAnnounced q.1) ∧ (∃ rest, ([("U", .func Ex.utility)] ++ rest).Perm Ex.rels) ∧
    (∀ pv, CalledWith Ex.net0.g exAnnounced "U" pv → Ex.utility pv = .ok (.val (if pv "A" = pv "D" then 1 else 0))) :=
  ⟨Ex.net0_fresh, Ex.net0_wf, by decide +kernel, fun v => by simp [Ex.rels, Ex.net0, Ex.m, Net.g]; tauto, ex_respects, ⟨Ex.rels.tail, .refl _⟩,
    fun _ _ => rfl⟩

/-- **C113** The condition on totals is needed: with a distribution whose total falls short and nothing left open, `add_cpds` fails
with a ValueError. -/
theorem C113_needs_total : ∃ (net : Net) (r : Rel), net.Fresh ∧ net.g.WF ∧ net.g.nodes = ["A"] ∧ r = .dist [(0, some (1 / 2))] ∧
    (net.addCpds [("A", r)]).2 = .error .value :=
  ⟨⟨⟨⟨["A"], []⟩, [], [], [], []⟩, [], [], [], Macid.new⟩, _, ⟨rfl, rfl, rfl⟩,
    ⟨by decide +kernel, by decide +kernel, by simp [Graph.Edge], fun v h => by
      obtain ⟨w, hw, _⟩ := (Relation.TransGen.head'_iff).1 h
      simp [Graph.Edge] at hw⟩, rfl, rfl, by decide +kernel⟩

end Verif
