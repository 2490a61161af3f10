import Verif.Lemmas.Backward

/-!
# Joint deviations of one agent in two networks that differ in irrelevant mechanisms
-/

namespace Verif

open Graph Relation

namespace BN

variable {g : Graph} {dom : Node → List Outcome}

/-- values of a node and its parents are outcomes -/
def LocIn (g : Graph) (dom : Node → List Outcome) (v : Node) (a : Assign) : Prop :=
  ∀ u, u = v ∨ g.Edge u v → a u ∈ dom u

theorem InDom.loc {k : Node → Assign → Rat} (hw : g.WF) {v : Node} (hv : v ∈ g.nodes) {a : Assign}
    (ha : InDom ⟨g, dom, k⟩ a) : LocIn g dom v a := by
  rintro u (rfl | h)
  · exact ha u hv
  · exact ha u (hw.edgeNodes u v h).1

/-- a network is one conditional distribution per node -/
theorem prob_of_rules {k k0 : Node → Assign → Rat} (h0 : Prob ⟨g, dom, k0⟩)
    (h : ∀ v ∈ g.nodes, IsRule ⟨g, dom, k0⟩ v (k v)) : Prob ⟨g, dom, k⟩ :=
  ⟨⟨h0.wf, h0.nodup, fun v hv => (h v hv).scope⟩, fun v hv => (h v hv).norm, fun v hv => (h v hv).nonneg⟩

theorem Prob.rule {k k0 : Node → Assign → Rat} (h : Prob ⟨g, dom, k⟩) {v : Node} (hv : v ∈ g.nodes) :
    IsRule ⟨g, dom, k0⟩ v (k v) := ⟨h.scope v hv, h.norm v hv, h.nonneg v hv⟩

/-- the mechanisms of the listed nodes from one family, the others from another -/
def set (K : List Node) (b r : Node → Assign → Rat) : Node → Assign → Rat := fun v => if v ∈ K then r v else b v

theorem set_in {K : List Node} {b r : Node → Assign → Rat} {v : Node} (h : v ∈ K) : set K b r v = r v := if_pos h
theorem set_out {K : List Node} {b r : Node → Assign → Rat} {v : Node} (h : v ∉ K) : set K b r v = b v := if_neg h

theorem set_prob {K : List Node} {b r : Node → Assign → Rat} (hb : Prob ⟨g, dom, b⟩) (hr : Prob ⟨g, dom, r⟩) :
    Prob ⟨g, dom, set K b r⟩ := by
  refine prob_of_rules hb (fun v hv => ?_)
  by_cases h : v ∈ K
  · rw [set_in h]; exact hr.rule hv
  · rw [set_out h]; exact hb.rule hv

/-- equal mechanisms on the assignments that count -/
theorem W_eq_at {k k' : Node → Assign → Rat} (hw : g.WF) {O : List Node} {z : Assign}
    (h : ∀ v ∈ g.nodes, ∀ a, LocIn g dom v a → (∀ o ∈ O, a o = z o) → k' v a = k v a) (f : Assign → Rat) :
    W ⟨g, dom, k'⟩ (at_ O z f) = W ⟨g, dom, k⟩ (at_ O z f) := by
  unfold W
  apply sumOver_congr
  intro b hb _
  unfold at_
  split
  · rename_i hc
    congr 1
    unfold prod
    show ((g.nodes.map (fun v => k' v b)).prod) = (g.nodes.map (fun v => k v b)).prod
    rw [List.map_congr_left (fun v hv => h v hv b (InDom.loc (k := k) hw hv hb) hc)]
  · rw [mul_zero, mul_zero]

theorem W_eq {k k' : Node → Assign → Rat} (hw : g.WF)
    (h : ∀ v ∈ g.nodes, ∀ a, LocIn g dom v a → k' v a = k v a) (f : Assign → Rat) :
    W ⟨g, dom, k'⟩ f = W ⟨g, dom, k⟩ f :=
  W_same (B := ⟨g, dom, k⟩) (B' := ⟨g, dom, k'⟩) rfl rfl (fun v hv a ha => h v hv a (InDom.loc (k := k) hw hv ha)) f

open Classical in
/-- the mechanisms of `K` do not matter for what is not downstream of `K` -/
theorem W_upstream {k k' : Node → Assign → Rat} (hk : Prob ⟨g, dom, k⟩) (hk' : Prob ⟨g, dom, k'⟩) {K : Node → Prop}
    (h : ∀ v ∈ g.nodes, ¬ K v → ∀ a, LocIn g dom v a → k' v a = k v a) {f : Assign → Rat}
    (hf : DependsOn f (fun v => v ∈ g.nodes ∧ ∀ d, K d → ¬ g.DescEq d v)) :
    W ⟨g, dom, k'⟩ f = W ⟨g, dom, k⟩ f := by
  let U := g.nodes.filter (fun v => decide (∀ d, K d → ¬ g.DescEq d v))
  have hm : ∀ v, v ∈ U ↔ v ∈ g.nodes ∧ ∀ d, K d → ¬ g.DescEq d v := fun v => by simp [U]
  have hn : U.Nodup := hk.wf.nodesNodup.filter _
  have hU : ∀ v ∈ U, v ∈ g.nodes := fun v hv => ((hm v).1 hv).1
  have ha : ∀ u v, g.Edge u v → v ∈ U → u ∈ U := fun u v huv hv =>
    (hm u).2 ⟨(hk.wf.edgeNodes u v huv).1, fun d hd hdu => ((hm v).1 hv).2 d hd (hdu.tail huv)⟩
  have hf' : DependsOn f (· ∈ U) := hf.mono (fun v hv => (hm v).2 hv)
  rw [W_ancestral hk hn hU ha hf' (fun v => (dom v).headD 0), W_ancestral hk' hn hU ha hf' (fun v => (dom v).headD 0)]
  show sumOver dom U _ _ = sumOver dom U _ _
  apply sumOver_congr
  intro b hb _
  congr 1
  unfold prod
  show ((U.map (fun v => k' v b)).prod) = (U.map (fun v => k v b)).prod
  rw [List.map_congr_left (fun v hv => h v (hU v hv) (fun hK => ((hm v).1 hv).2 v hK .refl) b (by
    rintro u (rfl | hu)
    · exact hb u hv
    · exact hb u (ha u v hu hv)))]

/-- `g0` has the nodes and some of the edges of `g`; the nodes `U` are closed under parents in `g0` -/
structure Base (g g0 : Graph) (U : List Node) : Prop where
  nodes : g0.nodes = g.nodes
  sub : ∀ u v, g0.Edge u v → g.Edge u v
  nodup : U.Nodup
  mem : ∀ v ∈ U, v ∈ g.nodes
  closed : ∀ u v, g0.Edge u v → v ∈ U → u ∈ U

/-- every graph is a base for itself -/
theorem Base.refl {k : Node → Assign → Rat} (hk : Prob ⟨g, dom, k⟩) : Base g g g.nodes :=
  ⟨rfl, fun _ _ h => h, hk.wf.nodesNodup, fun _ h => h, fun u v h _ => (hk.wf.edgeNodes u v h).1⟩

theorem Base.prob {g0 : Graph} {U : List Node} (hb : Base g g0 U) {k0 k : Node → Assign → Rat} (h0 : Prob ⟨g0, dom, k0⟩)
    (hk : Prob ⟨g, dom, k⟩) (h : ∀ v ∈ g.nodes, k v = k0 v ∨ ∀ u, g.Edge u v → g0.Edge u v) : Prob ⟨g0, dom, k⟩ := by
  refine prob_of_rules h0 (fun v hv => ?_)
  have hv' : v ∈ g.nodes := hb.nodes ▸ hv
  rcases h v hv' with e | e
  · rw [e]; exact h0.rule hv
  · refine ⟨(hk.scope v hv').mono ?_, fun a ha => hk.norm v hv' a (fun p hp => ha p (e p hp)), fun a ha => hk.nonneg v hv' a ?_⟩
    · rintro u (hu | hu)
      · exact Or.inl hu
      · exact Or.inr (e u hu)
    · rintro u (hu | hu)
      · exact ha u (Or.inl hu)
      · exact ha u (Or.inr (e u hu))

theorem prodNonneg : ∀ {U : List Node} {f : Node → Rat}, (∀ v ∈ U, 0 ≤ f v) → 0 ≤ (U.map f).prod
  | [], _, _ => by simp
  | v :: U, f, h => by
    rw [List.map_cons, List.prod_cons]
    exact mul_nonneg (h v (by simp)) (prodNonneg (fun w hw => h w (by simp [hw])))

/-- what is impossible in one network is impossible in another with smaller supports -/
theorem W_support {k k' : Node → Assign → Rat} {g0 : Graph} {U : List Node} (hb : Base g g0 U) (hw : g.WF) (hk : Prob ⟨g0, dom, k⟩)
    (h : ∀ v ∈ U, ∀ a, LocIn g dom v a → k v a = 0 → k' v a = 0) {O : List Node} (hO : ∀ o ∈ O, o ∈ U) {z : Assign}
    (h0 : W ⟨g, dom, k⟩ (at_ O z (fun _ => 1)) = 0) (f : Assign → Rat) : W ⟨g, dom, k'⟩ (at_ O z f) = 0 := by
  have e : W ⟨g, dom, k⟩ (at_ O z (fun _ => 1)) = W ⟨g0, dom, k⟩ (at_ O z (fun _ => 1)) := by
    unfold W
    show sumOver dom g.nodes _ _ = sumOver dom g0.nodes _ _
    rw [hb.nodes]
    rfl
  have hdep : DependsOn (at_ O z (fun _ => (1 : Rat))) (· ∈ U) := by
    intro a b hab
    unfold at_
    have e : (∀ v ∈ O, a v = z v) ↔ ∀ v ∈ O, b v = z v := forall₂_congr (fun v hv => by rw [hab v (hO v hv)])
    simp only [e]
  have hU0 : ∀ v ∈ U, v ∈ (⟨g0, dom, k⟩ : BN).g.nodes := fun v hv => by
    show v ∈ g0.nodes
    rw [hb.nodes]; exact hb.mem v hv
  have hnn : ∀ b : Assign, 0 ≤ at_ O z (fun _ => 1) b := fun b => by
    unfold at_; split <;> norm_num
  have hpnn : ∀ b : Assign, (∀ v ∈ U, b v ∈ dom v) → 0 ≤ prod ⟨g0, dom, k⟩ U b := by
    intro b hb'
    unfold prod
    refine prodNonneg (fun v hv => ?_)
    refine hk.nonneg v (hU0 v hv) b ?_
    rintro u (rfl | hu)
    · exact hb' u hv
    · exact hb' u (hb.closed u v hu hv)
  unfold W
  refine (sumOver_congr (h := fun _ => 0) ?_).trans (sumOver_zero _ _)
  intro b hbd _
  unfold at_
  split
  · rename_i hc
    rw [e, W_ancestral hk hb.nodup hU0 hb.closed hdep b] at h0
    have := sumOver_eq_zero (fun c hc _ => mul_nonneg (hpnn c hc) (hnn c)) h0 b (fun v hv => hbd v (hb.mem v hv)) (fun _ _ => rfl)
    unfold at_ at this
    rw [if_pos hc, mul_one] at this
    have : prod ⟨g, dom, k'⟩ g.nodes b = 0 := by
      unfold prod at this ⊢
      rw [List.prod_eq_zero_iff] at this ⊢
      obtain ⟨v, hv, e⟩ := List.mem_map.1 this
      exact List.mem_map.2 ⟨v, hb.mem v hv, h v hv b (InDom.loc (k := k) hw (hb.mem v hv) hbd) e⟩
    show prod ⟨g, dom, k'⟩ g.nodes b * f b = 0
    rw [this, zero_mul]
  · rw [mul_zero]

/-- totals that agree although one side is at least as large in every context agree in every context -/
theorem W_eq_ctx {k k' : Node → Assign → Rat} (hk : Prob ⟨g, dom, k⟩) {O : List Node} (hO : ∀ o ∈ O, o ∈ g.nodes)
    (hOn : O.Nodup) {h : Assign → Rat}
    (hle : ∀ z : Assign, (∀ v ∈ O, z v ∈ dom v) → W ⟨g, dom, k⟩ (at_ O z h) ≤ W ⟨g, dom, k'⟩ (at_ O z h))
    (htot : W ⟨g, dom, k'⟩ h ≤ W ⟨g, dom, k⟩ h) {z : Assign} (hz : ∀ v ∈ O, z v ∈ dom v) :
    W ⟨g, dom, k'⟩ (at_ O z h) = W ⟨g, dom, k⟩ (at_ O z h) := by
  refine le_antisymm ?_ (hle z hz)
  let h' : Assign → Rat := fun a => if ∀ v ∈ O, a v = z v then 0 else h a
  have hs : ∀ k : Node → Assign → Rat, W ⟨g, dom, k⟩ h = W ⟨g, dom, k⟩ (at_ O z h) + W ⟨g, dom, k⟩ h' := by
    intro k
    rw [← W_add]
    congr 1
    funext a
    simp only [at_, h']
    split <;> simp
  have hrest : W ⟨g, dom, k⟩ h' ≤ W ⟨g, dom, k'⟩ h' := by
    refine W_le_ctx (B := ⟨g, dom, k⟩) (B' := ⟨g, dom, k'⟩) rfl rfl hk.nodup (Z := O) hO hOn (fun y hy => ?_)
    by_cases hyz : ∀ v ∈ O, y v = z v
    · have e : ∀ k : Node → Assign → Rat, W ⟨g, dom, k⟩ (at_ O y h') = W ⟨g, dom, k⟩ (fun _ => 0) := by
        intro k
        congr 1
        funext a
        simp only [at_, h']
        split
        · rename_i h1
          rw [if_pos (fun v hv => (h1 v hv).trans (hyz v hv))]
        · rfl
      have e0 : ∀ k : Node → Assign → Rat, W ⟨g, dom, k⟩ (fun _ => 0) = 0 := fun k => by
        have := W_mul_const ⟨g, dom, k⟩ 0 (fun _ => 0)
        simpa using this
      rw [e, e, e0, e0]
    · have e : at_ O y h' = at_ O y h := by
        funext a
        simp only [at_, h']
        split
        · rename_i h1
          rw [if_neg (fun h2 => hyz (fun v hv => (h1 v hv).symm.trans (h2 v hv)))]
        · rfl
      rw [e]
      exact hle y hy
  rw [hs k, hs k'] at htot
  linarith

theorem at_congr {O : List Node} {z z' : Assign} (h : ∀ v ∈ O, z v = z' v) (f : Assign → Rat) : at_ O z f = at_ O z' f := by
  funext a
  unfold at_
  have : (∀ v ∈ O, a v = z v) ↔ ∀ v ∈ O, a v = z' v := forall₂_congr (fun v hv => by rw [h v hv])
  simp only [this]

/-- Decisions `K` of one agent with the observations `O` they share.  What they can influence in `H` is separated, given
`O`, from the mechanisms of the nodes in `D`. -/
structure Team (g : Graph) (H : Assign → Rat) (D : Node → Prop) (K O : List Node) : Prop where
  nodes : ∀ d ∈ K, d ∈ g.nodes
  onodes : ∀ o ∈ O, o ∈ g.nodes
  obs : ∀ o ∈ O, ∀ d ∈ K, g.Edge o d
  nodup : O.Nodup
  split : ∃ (h1 h2 : Assign → Rat) (G : Graph) (S T : List Node), (∀ a, H a = h1 a + h2 a) ∧
    DependsOn h1 (fun v => v ∈ T ∧ v ∈ g.nodes) ∧ DependsOn h2 (fun v => v ∈ g.nodes ∧ ∀ d, d ∈ K → ¬ g.DescEq d v) ∧
    (∀ u v, g.Edge u v → G.Edge u v) ∧ (∀ v ∈ g.nodes, D v → ∃ s ∈ S, s ∉ O ∧ G.Edge s v) ∧
    ∀ t ∈ T, ¬ Reached G O S t

/-- members of the listed teams -/
def Member (Ks : List (List Node × List Node)) (v : Node) : Prop := ∃ KO ∈ Ks, v ∈ KO.1

theorem member_cons {K O : List Node} {Ks : List (List Node × List Node)} {v : Node} :
    Member ((K, O) :: Ks) v ↔ v ∈ K ∨ Member Ks v := by
  simp [Member]

/-- a list of teams, each separated from the later ones and from `C` -/
def Teams (g : Graph) (H : Assign → Rat) (C : Node → Prop) : List (List Node × List Node) → Prop
  | [] => True
  | (K, O) :: Ks => Team g H (fun v => C v ∨ Member Ks v) K O ∧ (∀ v ∈ K, ¬ C v ∧ ¬ Member Ks v) ∧ Teams g H C Ks

open Classical in
/-- **Transfer of optimality.**  `kA` and `kB` differ in mechanisms the teams are separated from, and no observation that is impossible
in `kA` is possible in `kB`: this is required for a set `U` of nodes that contains the observations and all that `kA` makes them
depend on.  If no joint change of the members' rules helps in `kA`, none helps in `kB`. -/
theorem transfer {H : Assign → Rat} {C : Node → Prop} {g0 : Graph} {U : List Node} (hbase : Base g g0 U) :
    ∀ (Ks : List (List Node × List Node)), Teams g H C Ks →
    (∀ KO ∈ Ks, (∀ o ∈ KO.2, o ∈ U) ∧ ∀ v ∈ KO.1, ∀ u, g.Edge u v → g0.Edge u v) →
    ∀ {kA kB : Node → Assign → Rat}, Prob ⟨g, dom, kA⟩ → Prob ⟨g0, dom, kA⟩ → Prob ⟨g, dom, kB⟩ →
    (∀ v ∈ g.nodes, ¬ C v → ∀ a, LocIn g dom v a → kB v a = kA v a) →
    (∀ v ∈ U, ∀ a, LocIn g dom v a → kA v a = 0 → kB v a = 0) →
    (∀ k, Prob ⟨g, dom, k⟩ → (∀ v ∈ g.nodes, ¬ Member Ks v → ∀ a, LocIn g dom v a → k v a = kA v a) →
      W ⟨g, dom, k⟩ H ≤ W ⟨g, dom, kA⟩ H) →
    ∀ k, Prob ⟨g, dom, k⟩ → (∀ v ∈ g.nodes, ¬ Member Ks v → ∀ a, LocIn g dom v a → k v a = kB v a) →
      W ⟨g, dom, k⟩ H ≤ W ⟨g, dom, kB⟩ H
  | [], _, _, kA, kB, hA, _, hB, hAB, hsup, hopt, k, hk, hkB =>
    le_of_eq (W_eq hA.wf (fun v hv a ha => hkB v hv (by simp [Member]) a ha) H)
  | (K, O) :: Ks, hT, hKs, kA, kB, hA, hA0, hB, hAB, hsup, hopt, k, hk, hkB => by
    have hOU : ∀ o ∈ O, o ∈ U := (hKs (K, O) (by simp)).1
    have hKe : ∀ v, v ∈ K ∨ Member Ks v → ∀ u, g.Edge u v → g0.Edge u v := by
      rintro v (hv | ⟨KO, hv1, hv2⟩)
      · exact (hKs (K, O) (by simp)).2 v hv
      · exact (hKs KO (by simp [hv1])).2 v hv2
    obtain ⟨team, hdis, hrest⟩ := hT
    obtain ⟨h1, h2, G, S, T, hH, hh1, hh2, hG, hDs, hsep⟩ := team.split
    have hw := hA.wf
    have hHe : H = fun a => h1 a + h2 a := funext hH
    -- observations are not influenced
    have hOup : ∀ o ∈ O, ∀ d ∈ K, ¬ g.DescEq d o := fun o ho d hd h =>
      hw.acyclic d (TransGen.tail'_iff.2 ⟨o, h, team.obs o ho d hd⟩)
    have hKO : ∀ d ∈ K, d ∉ O := fun d hd ho => hOup d ho d hd .refl
    have hat1 : ∀ z, DependsOn (at_ O z (fun _ => (1 : Rat))) (fun v => v ∈ g.nodes ∧ ∀ d, d ∈ K → ¬ g.DescEq d v) := by
      intro z a b hab
      unfold at_
      have e : (∀ v ∈ O, a v = z v) ↔ ∀ v ∈ O, b v = z v :=
        forall₂_congr (fun v hv => by rw [hab v ⟨team.onodes v hv, fun d hd => hOup v hv d hd⟩])
      simp only [e]
    -- the network in which both ways of playing the later decisions are possible
    let kR : Node → Assign → Rat := fun v a => if Member Ks v then (kA v a + k v a) / 2 else kA v a
    have hR : Prob ⟨g, dom, kR⟩ := by
      refine prob_of_rules hA (fun v hv => ?_)
      by_cases hm : Member Ks v
      · have e : kR v = fun a => (kA v a + k v a) / 2 := by funext a; simp only [kR, if_pos hm]
        rw [e]
        refine ⟨fun a b hab => ?_, fun a ha => ?_, fun a ha => ?_⟩
        · show (kA v a + k v a) / 2 = (kA v b + k v b) / 2
          rw [show kA v a = kA v b from hA.scope v hv a b hab, show k v a = k v b from hk.scope v hv a b hab]
        · have e1 := hA.norm v hv a ha
          have e2 := hk.norm v hv a ha
          show ((dom v).map (fun x => (kA v (Assign.upd a v x) + k v (Assign.upd a v x)) / 2)).sum = 1
          rw [show (fun x => (kA v (Assign.upd a v x) + k v (Assign.upd a v x)) / 2) =
            fun x => (kA v (Assign.upd a v x) + k v (Assign.upd a v x)) * (1 / 2) from by funext x; ring,
            List.sum_map_mul_right, List.sum_map_add]
          show (((dom v).map (fun x => kA v (Assign.upd a v x))).sum + ((dom v).map (fun x => k v (Assign.upd a v x))).sum) * (1 / 2) = 1
          rw [show ((dom v).map (fun x => kA v (Assign.upd a v x))).sum = 1 from e1,
            show ((dom v).map (fun x => k v (Assign.upd a v x))).sum = 1 from e2]
          norm_num
        · have e1 := hA.nonneg v hv a ha
          have e2 := hk.nonneg v hv a ha
          show 0 ≤ (kA v a + k v a) / 2
          have e1' : 0 ≤ kA v a := e1
          have e2' : 0 ≤ k v a := e2
          linarith
      · have e : kR v = kA v := by funext a; simp only [kR, if_neg hm]
        rw [e]
        exact hA.rule hv
    have hRA : ∀ v ∈ g.nodes, ¬ Member Ks v → ∀ a, kR v a = kA v a := fun v _ hm a => if_neg hm
    have hg0 : ∀ {r : Node → Assign → Rat}, Prob ⟨g, dom, set K kR r⟩ → Prob ⟨g0, dom, set K kR r⟩ := by
      intro r hr
      refine hbase.prob hA0 hr (fun v hv => ?_)
      by_cases hvK : v ∈ K
      · exact Or.inr (hKe v (Or.inl hvK))
      · by_cases hm : Member Ks v
        · exact Or.inr (hKe v (Or.inr hm))
        · exact Or.inl (by rw [set_out hvK]; funext a; exact if_neg hm)
    have hR0 : ∀ v ∈ g.nodes, ∀ a, LocIn g dom v a → kR v a = 0 → kA v a = 0 ∧ (Member Ks v → k v a = 0) := by
      intro v hv a ha h0
      by_cases hm : Member Ks v
      · simp only [kR, if_pos hm] at h0
        have e1 : 0 ≤ kA v a := hA.nonneg v hv a ha
        have e2 : 0 ≤ k v a := hk.nonneg v hv a ha
        exact ⟨by linarith, fun _ => by linarith⟩
      · rw [hRA v hv hm] at h0
        exact ⟨h0, fun h => absurd h hm⟩
    -- pick the better rules, context by context
    let good : Assign → Prop := fun z =>
      W ⟨g, dom, set K kR kA⟩ (at_ O z h1) ≤ W ⟨g, dom, set K kR k⟩ (at_ O z h1)
    have hgood : ∀ a b : Assign, (∀ v ∈ O, a v = b v) → (good a ↔ good b) := by
      intro a b hab
      simp only [good]
      rw [at_congr hab]
    let mix : Node → Assign → Rat := fun v a => if good a then k v a else kA v a
    have hmix : Prob ⟨g, dom, set K kA mix⟩ := by
      refine prob_of_rules hA (fun v hv => ?_)
      by_cases hvK : v ∈ K
      · rw [set_in hvK]
        have hup : ∀ a x, good (Assign.upd a v x) ↔ good a := fun a x =>
          hgood _ _ (fun o ho => Assign.upd_ne _ _ (fun e => hKO v hvK (e ▸ ho)))
        refine ⟨fun a b hab => ?_, fun a ha => ?_, fun a ha => ?_⟩
        · have : good a ↔ good b := hgood _ _ (fun o ho => hab o (Or.inr (team.obs o ho v hvK)))
          simp only [mix, this]
          rw [show kA v a = kA v b from hA.scope v hv a b hab, show k v a = k v b from hk.scope v hv a b hab]
        · show ((dom v).map (fun x => mix v (Assign.upd a v x))).sum = 1
          simp only [mix, hup]
          by_cases hg : good a
          · simp only [if_pos hg]; exact hk.norm v hv a ha
          · simp only [if_neg hg]; exact hA.norm v hv a ha
        · show 0 ≤ mix v a
          simp only [mix]
          split
          · exact hk.nonneg v hv a ha
          · exact hA.nonneg v hv a ha
      · rw [set_out hvK]
        exact hA.rule hv
    have hmix0 : Prob ⟨g0, dom, set K kA mix⟩ := by
      refine hbase.prob hA0 hmix (fun v hv => ?_)
      by_cases hvK : v ∈ K
      · exact Or.inr (hKe v (Or.inl hvK))
      · exact Or.inl (set_out hvK)
    have hset : ∀ {b}, Prob ⟨g, dom, b⟩ → Prob ⟨g, dom, set K b mix⟩ := by
      intro b hb
      refine prob_of_rules hA (fun v hv => ?_)
      by_cases hvK : v ∈ K
      · have := hmix.rule (k0 := kA) hv
        rw [set_in hvK] at this ⊢
        exact this
      · rw [set_out hvK]
        exact hb.rule hv
    -- the chance of a context does not depend on the rules in `K`
    have hctx : ∀ {b r r'}, Prob ⟨g, dom, set K b r⟩ → Prob ⟨g, dom, set K b r'⟩ → ∀ z,
        W ⟨g, dom, set K b r⟩ (at_ O z (fun _ => 1)) = W ⟨g, dom, set K b r'⟩ (at_ O z (fun _ => 1)) := by
      intro b r r' h3 h4 z
      refine W_upstream h4 h3 (K := (· ∈ K)) (fun v hv hvK a ha => ?_) (hat1 z)
      rw [set_out hvK, set_out hvK]
    have hup2 : ∀ {b r r'}, Prob ⟨g, dom, set K b r⟩ → Prob ⟨g, dom, set K b r'⟩ →
        W ⟨g, dom, set K b r⟩ h2 = W ⟨g, dom, set K b r'⟩ h2 := by
      intro b r r' h3 h4
      refine W_upstream h4 h3 (K := (· ∈ K)) (fun v hv hvK a ha => ?_) hh2
      rw [set_out hvK, set_out hvK]
    have hnn : ∀ {b}, Prob ⟨g, dom, b⟩ → ∀ z, 0 ≤ W ⟨g, dom, b⟩ (at_ O z (fun _ => 1)) := by
      intro b hb z
      apply W_nonneg hb
      intro a _
      unfold at_
      split <;> norm_num
    -- separated mechanisms do not change the ranking
    have hcross : ∀ {b b' r}, Prob ⟨g, dom, set K b r⟩ → Prob ⟨g, dom, set K b' r⟩ →
        (∀ v ∈ g.nodes, ¬ (C v ∨ Member Ks v) → v ∉ K → ∀ a, LocIn g dom v a → b' v a = b v a) → ∀ z,
        W ⟨g, dom, set K b r⟩ (at_ O z h1) * W ⟨g, dom, set K b' r⟩ (at_ O z (fun _ => 1)) =
          W ⟨g, dom, set K b' r⟩ (at_ O z h1) * W ⟨g, dom, set K b r⟩ (at_ O z (fun _ => 1)) := by
      intro b b' r h3 h4 h5 z
      refine irrelevant (B := ⟨g, dom, set K b r⟩) (B' := ⟨g, dom, set K b' r⟩) h3 h4 rfl (fun _ _ => rfl)
        (Ds := fun v => C v ∨ Member Ks v) (fun v hv hn a ha => ?_) hG team.onodes hDs hsep z (hh1.mono (fun v hv => Or.inr hv))
      show set K b' r v a = set K b r v a
      by_cases hvK : v ∈ K
      · rw [set_in hvK, set_in hvK]
      · rw [set_out hvK, set_out hvK, h5 v hv hn hvK a ha]
    -- hence the chosen rules are at least as good as both, in every network at hand
    have hbest : ∀ {b}, Prob ⟨g, dom, b⟩ →
        (∀ v ∈ g.nodes, ¬ (C v ∨ Member Ks v) → v ∉ K → ∀ a, LocIn g dom v a → b v a = kR v a) →
        (∀ v ∈ U, v ∉ K → ∀ a, LocIn g dom v a → kR v a = 0 → b v a = 0) → ∀ z, (∀ v ∈ O, z v ∈ dom v) →
        W ⟨g, dom, set K b kA⟩ (at_ O z h1) ≤ W ⟨g, dom, set K b mix⟩ (at_ O z h1) ∧
        W ⟨g, dom, set K b k⟩ (at_ O z h1) ≤ W ⟨g, dom, set K b mix⟩ (at_ O z h1) := by
      intro b hb hag hsp z hz
      have hmx : ∀ r, (∀ v ∈ K, ∀ a, (∀ o ∈ O, a o = z o) → mix v a = r v a) →
          W ⟨g, dom, set K b mix⟩ (at_ O z h1) = W ⟨g, dom, set K b r⟩ (at_ O z h1) := by
        intro r hr
        refine W_eq_at hw (fun v hv a _ hao => ?_) h1
        by_cases hvK : v ∈ K
        · rw [set_in hvK, set_in hvK, hr v hvK a hao]
        · rw [set_out hvK, set_out hvK]
      have pA := set_prob (K := K) hb hA
      have pK := set_prob (K := K) hb hk
      have rA := set_prob (K := K) hR hA
      have rK := set_prob (K := K) hR hk
      have c1 := hcross rA pA hag z
      have c2 := hcross rK pK hag z
      have e1 := hctx rA rK z
      have e2 := hctx pA pK z
      rw [← e1, ← e2] at c2
      have n1 := hnn rA z
      have n2 := hnn pA z
      have hzero : W ⟨g, dom, set K kR kA⟩ (at_ O z (fun _ => 1)) = 0 →
          W ⟨g, dom, set K b kA⟩ (at_ O z h1) = 0 ∧ W ⟨g, dom, set K b k⟩ (at_ O z h1) = 0 := by
        intro h0
        refine ⟨W_support hbase hw (hg0 rA) (fun v hv a ha hva => ?_) hOU h0 h1, W_support hbase hw (hg0 rK) (fun v hv a ha hva => ?_) hOU (e1 ▸ h0) h1⟩
        · by_cases hvK : v ∈ K
          · rw [set_in hvK] at hva ⊢; exact hva
          · rw [set_out hvK] at hva ⊢; exact hsp v hv hvK a ha hva
        · by_cases hvK : v ∈ K
          · rw [set_in hvK] at hva ⊢; exact hva
          · rw [set_out hvK] at hva ⊢; exact hsp v hv hvK a ha hva
      by_cases hg : good z
      · rw [hmx k (fun v _ a hao => by simp only [mix]; rw [if_pos ((hgood a z hao).2 hg)])]
        refine ⟨?_, le_refl _⟩
        rcases n1.lt_or_eq with hp | h0
        · refine le_of_mul_le_mul_right ?_ hp
          rw [← c1, ← c2]
          exact mul_le_mul_of_nonneg_right hg n2
        · obtain ⟨z1, z2⟩ := hzero h0.symm
          rw [z1, z2]
      · rw [hmx kA (fun v _ a hao => by simp only [mix]; rw [if_neg (fun h => hg ((hgood a z hao).1 h))])]
        refine ⟨le_refl _, ?_⟩
        rcases n1.lt_or_eq with hp | h0
        · refine le_of_mul_le_mul_right ?_ hp
          rw [← c1, ← c2]
          exact mul_le_mul_of_nonneg_right (le_of_lt (not_le.1 hg)) n2
        · obtain ⟨z1, z2⟩ := hzero h0.symm
          rw [z1, z2]
    have hctxle : ∀ {b b' : Node → Assign → Rat}, Prob ⟨g, dom, b⟩ → (∀ z : Assign, (∀ v ∈ O, z v ∈ dom v) →
        W ⟨g, dom, b⟩ (at_ O z h1) ≤ W ⟨g, dom, b'⟩ (at_ O z h1)) → W ⟨g, dom, b⟩ h1 ≤ W ⟨g, dom, b'⟩ h1 := by
      intro b b' hb hle
      exact W_le_ctx (B := ⟨g, dom, b⟩) (B' := ⟨g, dom, b'⟩) rfl rfl hb.nodup (Z := O) team.onodes team.nodup hle
    -- in `kA`
    have sA : set K kA kA = kA := by
      funext v; unfold set; split <;> rfl
    have sk : set K k k = k := by
      funext v; unfold set; split <;> rfl
    have bA := hbest hA (fun v hv hn _ a _ => (hRA v hv (fun h => hn (Or.inr h)) a).symm) (fun v hv _ a ha h0 => (hR0 v (hbase.mem v hv) a ha h0).1)
    rw [sA] at bA
    have hoptM : W ⟨g, dom, set K kA mix⟩ H ≤ W ⟨g, dom, kA⟩ H := by
      refine hopt _ hmix (fun v hv hm a _ => ?_)
      rw [set_out (fun h => hm (member_cons.2 (Or.inl h)))]
    have h2A := hup2 (b := kA) (r := mix) (r' := kA) hmix (by rw [sA]; exact hA)
    rw [sA] at h2A
    have hleA := hctxle hA (fun z hz => (bA z hz).1)
    have hMA : W ⟨g, dom, set K kA mix⟩ H = W ⟨g, dom, kA⟩ H := by
      refine le_antisymm hoptM ?_
      rw [hHe, W_add, W_add, h2A]
      linarith
    have heqA : ∀ z : Assign, (∀ v ∈ O, z v ∈ dom v) →
        W ⟨g, dom, set K kA mix⟩ (at_ O z h1) = W ⟨g, dom, kA⟩ (at_ O z h1) := by
      intro z hz
      refine W_eq_ctx hA team.onodes team.nodup (fun y hy => (bA y hy).1) ?_ hz
      rw [hHe, W_add, W_add, h2A] at hMA
      linarith
    -- in `kB`
    have hBm := hset hB
    have sB : ∀ z : Assign, W ⟨g, dom, set K kB kA⟩ (at_ O z h1) = W ⟨g, dom, kB⟩ (at_ O z h1) := by
      intro z
      refine W_eq_at hw (fun v hv a ha _ => ?_) h1
      by_cases hvK : v ∈ K
      · rw [set_in hvK, hAB v hv (hdis v hvK).1 a ha]
      · rw [set_out hvK]
    have heqB : ∀ z : Assign, (∀ v ∈ O, z v ∈ dom v) →
        W ⟨g, dom, set K kB mix⟩ (at_ O z h1) = W ⟨g, dom, kB⟩ (at_ O z h1) := by
      intro z hz
      have pA := set_prob (K := K) hB hA
      have hag : ∀ v ∈ g.nodes, ¬ (C v ∨ Member Ks v) → v ∉ K → ∀ a, LocIn g dom v a → kB v a = kA v a :=
        fun v hv hn _ a ha => hAB v hv (fun h => hn (Or.inl h)) a ha
      have c1 := hcross (r := mix) hmix hBm hag z
      have c2 := hcross (b := kA) (r := kA) (by rw [sA]; exact hA) pA hag z
      rw [sA] at c2
      have e1 := hctx (b := kA) (r := mix) (r' := kA) hmix (by rw [sA]; exact hA) z
      rw [sA] at e1
      have e2 := hctx (b := kB) (r := mix) (r' := kA) hBm pA z
      rw [heqA z hz, e1, e2, c2] at c1
      rw [← sB z]
      rcases (hnn hA z).lt_or_eq with hp | h0
      · exact (mul_right_cancel₀ (ne_of_gt hp) c1).symm
      · have z1 : W ⟨g, dom, set K kB kA⟩ (at_ O z h1) = 0 := by
          refine W_support hbase hw hA0 (fun v hv a ha hva => ?_) hOU h0.symm h1
          by_cases hvK : v ∈ K
          · rw [set_in hvK]; exact hva
          · rw [set_out hvK]; exact hsup v hv a ha hva
        have z2 : W ⟨g, dom, set K kB mix⟩ (at_ O z h1) = 0 := by
          refine W_support hbase hw hmix0 (fun v hv a ha hva => ?_) hOU (e1.trans h0.symm) h1
          by_cases hvK : v ∈ K
          · rw [set_in hvK] at hva ⊢; exact hva
          · rw [set_out hvK] at hva ⊢; exact hsup v hv a ha hva
        rw [z1, z2]
    have h2B : W ⟨g, dom, set K kB mix⟩ h2 = W ⟨g, dom, kB⟩ h2 := by
      refine W_upstream hB hBm (K := (· ∈ K)) (fun v hv hvK a ha => ?_) hh2
      rw [set_out hvK]
    have hMB : W ⟨g, dom, set K kB mix⟩ H ≤ W ⟨g, dom, kB⟩ H := by
      rw [hHe, W_add, W_add, h2B]
      have : W ⟨g, dom, set K kB mix⟩ h1 ≤ W ⟨g, dom, kB⟩ h1 := by
        refine hctxle hBm (fun z hz => le_of_eq (heqB z hz))
      linarith
    -- in the deviation
    have hkR : ∀ v ∈ g.nodes, ¬ (C v ∨ Member Ks v) → v ∉ K → ∀ a, LocIn g dom v a → k v a = kR v a := by
      intro v hv hn hvK a ha
      rw [hRA v hv (fun h => hn (Or.inr h)), hkB v hv (fun h => (member_cons.1 h).elim hvK (fun h => hn (Or.inr h))) a ha,
        hAB v hv (fun h => hn (Or.inl h)) a ha]
    have hksp : ∀ v ∈ U, v ∉ K → ∀ a, LocIn g dom v a → kR v a = 0 → k v a = 0 := by
      intro v hvU hvK a ha h0
      have hv := hbase.mem v hvU
      obtain ⟨q1, q2⟩ := hR0 v hv a ha h0
      by_cases hm : Member Ks v
      · exact q2 hm
      · rw [hkB v hv (fun h => (member_cons.1 h).elim hvK hm) a ha]
        exact hsup v hvU a ha q1
    have bk := hbest hk hkR hksp
    rw [sk] at bk
    have hkm := hset hk
    have h2k : W ⟨g, dom, set K k mix⟩ h2 = W ⟨g, dom, k⟩ h2 := by
      refine W_upstream hk hkm (K := (· ∈ K)) (fun v hv hvK a ha => ?_) hh2
      rw [set_out hvK]
    have hstep : W ⟨g, dom, k⟩ H ≤ W ⟨g, dom, set K k mix⟩ H := by
      rw [hHe, W_add, W_add, h2k]
      have := hctxle hk (fun z hz => (bk z hz).2)
      linarith
    -- the rest by induction
    refine le_trans hstep (le_trans ?_ hMB)
    refine transfer hbase Ks hrest (fun KO h => hKs KO (by simp [h])) (kA := set K kA mix) (kB := set K kB mix) hmix hmix0 hBm ?_ ?_ ?_ _ hkm ?_
    · intro v hv hn a ha
      by_cases hvK : v ∈ K
      · rw [set_in hvK, set_in hvK]
      · rw [set_out hvK, set_out hvK]; exact hAB v hv hn a ha
    · intro v hv a ha hva
      by_cases hvK : v ∈ K
      · rw [set_in hvK] at hva ⊢; exact hva
      · rw [set_out hvK] at hva ⊢; exact hsup v hv a ha hva
    · intro k' hk' hag
      rw [hMA]
      refine hopt k' hk' (fun v hv hm a ha => ?_)
      rw [member_cons, not_or] at hm
      rw [hag v hv hm.2 a ha, set_out hm.1]
    · intro v hv hm a ha
      by_cases hvK : v ∈ K
      · rw [set_in hvK, set_in hvK]
      · rw [set_out hvK, set_out hvK]
        exact hkB v hv (fun h => (member_cons.1 h).elim hvK hm) a ha

end BN
end Verif
