import Verif.Lemmas.Assign

/-!
# A network that is queried again and again for the same variables
-/

namespace Verif

open Graph Relation

namespace Net

/-- What is left of `c` after queries for `q`: nodes that are not connected to `q` may be gone. -/
structure Sess (c : Net) (q : List Node) (s : Net) : Prop where
  good : s.Good
  normalised : s.Normalised
  dom : s.domain = c.domain
  roles : s.m = { c.m with g := s.g }
  sub : ∀ v ∈ s.g.nodes, v ∈ c.g.nodes
  keep : ∀ v ∈ c.g.nodes, v ∈ keepOf c q → v ∈ s.g.nodes
  edges : ∀ u v, v ∈ s.g.nodes → (s.g.Edge u v ↔ c.g.Edge u v)
  conn : ∀ x ∈ q, ∀ v, s.g.Connected x v ↔ c.g.Connected x v
  cpds : ∀ v ∈ s.g.nodes, s.cpds.get? v = c.cpds.get? v

/-- removed nodes do not matter for events about the remaining ones -/
theorem Sess.P' {c s : Net} {q : List Node} (h : Sess c q s) (hG : c.Good) (hN : c.Normalised) (E : Assign → Bool)
    (hE : DependsOn E (· ∈ s.g.nodes)) : s.P E = c.P E := by
  rw [P_eq_W, P_eq_W]
  have hE' : DependsOn (fun a => if E a = true then (1 : Rat) else 0) (· ∈ s.g.nodes) := by
    intro a b hab
    simp only
    rw [hE a b hab]
  rw [BN.W_ancestral (bn_prob hG hN) h.good.wf.nodesNodup h.sub (fun u v huv hv => (h.good.wf.edgeNodes u v ((h.edges u v hv).2 huv)).1) hE'
    (fun _ => 0)]
  unfold BN.W BN.prod
  show sumOver s.dom s.g.nodes _ _ = sumOver c.dom s.g.nodes _ _
  have hd : s.dom = c.dom := by funext v; unfold Net.dom; rw [h.dom]
  rw [hd]
  congr 1
  funext a
  congr 2
  apply List.map_congr_left
  intro v hv
  show s.kernel v a = c.kernel v a
  unfold kernel
  rw [h.cpds v hv, h.dom]

theorem Sess.P {c s : Net} {q : List Node} (h : Sess c q s) (hG : c.Good) (hN : c.Normalised) (E : Assign → Bool)
    (hE : DependsOn E (fun v => v ∈ c.g.nodes ∧ v ∈ keepOf c q)) : s.P E = c.P E :=
  h.P' hG hN E (hE.mono (fun v hv => h.keep v hv.1 hv.2))

theorem Sess.refl {c : Net} (hG : c.Good) (hN : c.Normalised) (q : List Node) : Sess c q c :=
  ⟨hG, hN, rfl, rfl, fun _ h => h, fun _ h _ => h, fun _ _ _ => Iff.rfl, fun _ _ _ => Iff.rfl, fun _ _ => rfl⟩

theorem prune_normalised {net : Net} (hG : Good net) (hN : net.Normalised) {K : List Node} (hK : Closed net.g K) :
    (net.prune K).Normalised := by
  have hB := prune_prob hG hN hK
  intro v hv a ha
  refine ⟨hB.nonneg v hv a ?_, hB.norm v hv a ?_⟩
  · rintro u (rfl | hu)
    · exact ha _ hv
    · exact ha u ((prune_wf hG.wf K).edgeNodes u v hu).1
  · exact fun p hp => ha p ((prune_wf hG.wf K).edgeNodes p v hp).1

theorem Sess.mem_keep {c s : Net} {q : List Node} (h : Sess c q s) (hG : c.Good) {v : Node} : v ∈ keepOf s q ↔ v ∈ keepOf c q := by
  rw [mem_keepOf h.good.wf, mem_keepOf hG.wf]
  refine exists_congr (fun x => and_congr_right (fun hx => h.conn x hx v))

theorem Sess.prune {c s : Net} {q : List Node} (h : Sess c q s) (hG : c.Good) : Sess c q (s.prune (keepOf s q)) := by
  have hK : Closed s.g (keepOf s q) := closed_keep h.good.wf q
  refine ⟨prune_good h.good hK, prune_normalised h.good h.normalised hK, h.dom, ?_, ?_, ?_, ?_, ?_, ?_⟩
  · exact (congrArg (fun m : Macid => ({ m with g := (s.prune (keepOf s q)).g } : Macid)) h.roles :)
  · intro v hv
    exact h.sub v (mem_prune.1 hv).1
  · intro v hv hk
    exact mem_prune.2 ⟨h.keep v hv hk, (h.mem_keep hG).2 hk⟩
  · intro u v hv
    obtain ⟨h1, h2⟩ := mem_prune.1 hv
    rw [prune_edge hK (Or.inr h2)]
    exact h.edges u v h1
  · intro x hx v
    rw [connected_prune hK ((mem_keepOf h.good.wf).2 ⟨x, hx, .refl⟩)]
    exact h.conn x hx v
  · intro v hv
    obtain ⟨h1, h2⟩ := mem_prune.1 hv
    rw [prune_cpds, if_pos (Or.inr h2)]
    exact h.cpds v h1

/-- a query without intervention leaves the network as it is or prunes it -/
theorem query_state (net : Net) (pick : Pick) (ord : List Node → List Node) (q : List Node) (ctx : List (Node × Outcome)) :
    (net.query pick ord q ctx []).1 = net ∨ (net.query pick ord q ctx []).1 = net.prune (keepOf net q) := by
  unfold query
  split
  · exact Or.inl rfl
  · split
    · exact Or.inl rfl
    · unfold queryCbn
      split
      · exact Or.inl rfl
      · simp only [queryCore]
        unfold queryOn
        split
        · exact Or.inl rfl
        · dsimp only
          split <;> exact Or.inr rfl

theorem expectedValue_state (net : Net) (pick : Pick) (ord : List Node → List Node) (q : List Node) (ctx int : List (Node × Outcome)) :
    (net.expectedValue pick ord q ctx int).1 = (net.query pick ord q ctx int).1 := by
  unfold expectedValue
  generalize net.query pick ord q ctx int = x
  obtain ⟨n, y⟩ := x
  cases y <;> rfl

theorem Sess.step {c s : Net} {q : List Node} (h : Sess c q s) (hG : c.Good) (pick : Pick) (ord : List Node → List Node)
    (ctx : List (Node × Outcome)) : Sess c q (s.expectedValue pick ord q ctx []).1 := by
  rw [expectedValue_state]
  rcases query_state s pick ord q ctx with e | e
  · rw [e]; exact h
  · rw [e]; exact h.prune hG

theorem Sess.mean {c s : Net} {q : List Node} (h : Sess c q s) (hG : c.Good) (hN : c.Normalised) {ctx : List (Node × Outcome)}
    (hc : ∀ p ∈ ctx, p.1 ∈ c.g.nodes ∧ p.1 ∈ keepOf c q) {v : Node} (hv : v ∈ c.g.nodes ∧ v ∈ keepOf c q) :
    s.Mean [] ctx v = c.Mean [] ctx v := by
  have hdc : DependsOn (Ctx ctx) (fun v => v ∈ c.g.nodes ∧ v ∈ keepOf c q) :=
    (ctx_depends _).mono (fun v hv => by obtain ⟨p, hp, rfl⟩ := List.mem_map.1 hv; exact hc p hp)
  unfold Mean
  simp only [PDo_nil]
  have : s.dom v = c.dom v := by unfold Net.dom; rw [h.dom]
  rw [this, h.P hG hN _ hdc]
  congr 1
  apply List.map_congr_left
  intro x _
  rw [h.P hG hN]
  intro a b hab
  simp only
  rw [hdc a b hab, hab v hv]

/-- the values of a session are those of the original network, which gives the context positive probability -/
theorem Sess.value {c s : Net} {q : List Node} (h : Sess c q s) (hG : c.Good) (hN : c.Normalised) {pick : Pick} {ord : List Node → List Node}
    (hord : ∀ l, (ord l).Perm l) {ctx : List (Node × Outcome)} (hc : ∀ p ∈ ctx, p.1 ∈ c.g.nodes → p.1 ∈ keepOf c q) {l : List Rat}
    (he : (s.expectedValue pick ord q ctx []).2 = .ok l) :
    q ≠ [] ∧ (∀ v ∈ q, v ∈ c.g.nodes) ∧ c.P (Ctx ctx) ≠ 0 ∧ l = (ord q).map (c.Mean [] ctx) := by
  unfold expectedValue at he
  generalize hx : s.query pick ord q ctx [] = x at he
  obtain ⟨n, y⟩ := x
  cases y with
  | error e => simp at he
  | ok f =>
    simp only at he
    obtain ⟨h1, _, h3⟩ := query_ok h.good (f := f) (by rw [hx])
    obtain ⟨k1, k2, k3, k4, k5, k6⟩ := queryOn_ok h.good h.normalised hord (fun p hp => (h1 p hp).1) h3
    have hq : ∀ v ∈ q, v ∈ c.g.nodes := fun v hv => h.sub v (k2 v hv)
    have hqk : ∀ v ∈ q, v ∈ keepOf c q := fun v hv => (mem_keepOf hG.wf).2 ⟨v, hv, .refl⟩
    have hc' : ∀ p ∈ ctx, p.1 ∈ c.g.nodes ∧ p.1 ∈ keepOf c q := fun p hp =>
      ⟨h.sub _ (h1 p hp).1, hc p hp (h.sub _ (h1 p hp).1)⟩
    have hcx : ctxOf s q ctx = ctx := by
      apply List.filter_eq_self.2
      intro p hp
      rw [decide_eq_true_eq, h.mem_keep hG]
      exact (hc' p hp).2
    rw [hcx] at k5
    have hdc : DependsOn (Ctx ctx) (fun v => v ∈ c.g.nodes ∧ v ∈ keepOf c q) :=
      (ctx_depends _).mono (fun v hv => by obtain ⟨p, hp, rfl⟩ := List.mem_map.1 hv; exact hc' p hp)
    have hpos : s.P (Ctx ctx) ≠ 0 := by
      intro h0
      -- all values would be NaN
      obtain ⟨e1, e2, e3⟩ := k5
      unfold evOf at he
      rw [if_pos] at he
      · simp at he
      · rw [e3, List.any_eq_true]
        have hne : ∃ xs, xs ∈ product f.states := by
          rw [e2]
          have : ∀ l : List Node, (∀ v ∈ l, v ∈ s.g.nodes) → ∃ xs, xs ∈ product (l.map s.dom) := by
            intro l
            induction l with
            | nil => intro _; exact ⟨[], by simp [product]⟩
            | cons v l ih =>
              intro hl
              obtain ⟨xs, hxs⟩ := ih (fun w hw => hl w (by simp [hw]))
              obtain ⟨x, hx⟩ := List.exists_mem_of_ne_nil _ (dom_props h.good (hl v (by simp))).2
              exact ⟨x :: xs, by
                simp only [List.map_cons, product, List.mem_flatMap, List.mem_map]
                exact ⟨x, hx, xs, hxs, rfl⟩⟩
          exact this f.vars (fun v hv => k2 v (e1.mem_iff.1 hv))
        obtain ⟨xs, hxs⟩ := hne
        exact ⟨none, List.mem_map.2 ⟨xs, hxs, by simp [h0]⟩, rfl⟩
    refine ⟨k1, hq, by rw [← h.P hG hN _ hdc]; exact hpos, ?_⟩
    have e := evOf_conditional h.good (int := []) (by simp) (by rw [PDo_nil]; exact hpos) k2 (dom' := s.dom) (fun _ _ => .refl _)
      (f := f) (ctx := ctx) (by rw [show s.PDo [] = s.P from funext (PDo_nil s)]; exact k5)
    rw [e] at he
    cases he
    rw [k6]
    apply List.map_congr_left
    intro v hv
    have hv' := (hord q).mem_iff.1 hv
    exact h.mean hG hN hc' ⟨hq v hv', hqk v hv'⟩

end Net
end Verif
