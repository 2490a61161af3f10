import Verif.Lemmas.Realize
import Verif.Props.Worth

/-!
# Property C87: without a response incentive an optimal policy need not respond
-/

namespace Verif

open Graph Relation Macid Net

/-- **C87** In a diagram of one agent with sufficient recall there is an optimal policy that responds to nothing but what `admits_ri`
lists: under it, an intervention on `x` changes no probability about the decisions for which `admits_ri` returns False and the nodes that are
not descendants of `x`. -/
theorem C87_no_response {cid : Net} (hU : cid.Usable) (hn : NamesOk cid.g) {pick : Pick} {tpick : List Node → Nat} {setOrd : ListOrder}
    (hset : ∀ l, (setOrd l).Perm l) (h1 : cid.m.agents.length ≤ 1) (hrec : cid.m.Recalls) {a : Agent} (ha : a ∈ cid.m.agents) :
    ∃ n, n.Usable ∧ OnlyRules cid cid.m.decisions n ∧ cid.IsMaxEU a (n.EU a) ∧
      ∀ x v, n.IntOk [(x, v)] → ∀ E : Assign → Bool,
        DependsOn E (fun d => (d ∈ cid.m.decisions ∧ d ≠ x ∧ admitsRi pick tpick setOrd cid d x = .ok false) ∨
          (d ∈ cid.g.nodes ∧ ¬ cid.g.DescEq x d)) → n.PDo [(x, v)] E = n.P E := by
  classical
  have hA := hU.analysable
  obtain ⟨rg, order, q1, _, j1, j2, j4, _⟩ := hA.requisiteGraph pick tpick hset
  have hag : ∀ d b, cid.m.role d = .decision b → b = a := fun e b he => hA.owner h1 ha (Or.inl he)
  have hmem : ∀ d, d ∈ order ↔ d ∈ cid.m.decisions := fun d => by rw [j1.all, decisions_role]
  have hag' : ∀ d ∈ order, cid.m.role d = .decision a := fun d hd => by
    obtain ⟨b, hb⟩ := (j1.all d).1 hd
    rw [hb, hag d b hb]
  have hon : ∀ d ∈ order, d ∈ cid.g.nodes := fun d hd => hU.roles.nodes d (Or.inl (Dict.mem_keys.2 ⟨a, role_decision.1 (hag' d hd)⟩))
  have hun : ∀ u ∈ cid.utils a, u ∈ cid.g.nodes := fun u hu =>
    hU.roles.nodes u (Or.inr (Dict.mem_keys.2 ⟨a, (role_utility hU.roles).1 ((mem_utils hU).1 hu)⟩))
  obtain ⟨r, hr⟩ := exists_maxEU hU hag
  obtain ⟨n1, hU1, hO1, hEU1⟩ := hr.reached
  have hO1' := hO1.congr (fun w => (hmem w).symm)
  obtain ⟨B1, p1, p2, p3, p4, p5⟩ := trim_W (m := cid.m) hU.good.wf j2 j1.nodup hag' hon (us := cid.utils a) (fun u hu => (mem_utils hU).1 hu) hun
    (bn_prob hU1.good hU1.normalised) (by show n1.m.g = _; rw [hO1.m])
    (fun v hv => by show n1.dom v ≠ []; rw [hO1.dom]; exact (dom_props hU.good hv).2) order [] rfl
  have p3' : B1.dom = cid.dom := by rw [p3]; exact hO1.dom
  have hE1 : ∀ u v, B1.g.Edge u v ↔ rg.g.Edge u v := by
    intro u v
    rw [p2, Graph.mem_trimmed]
    constructor
    · rintro ⟨h1, h2⟩
      by_cases hv : v ∈ order
      · exact h2 hv
      · exact j2.other u v h1 hv
    · exact fun h => ⟨j2.sub u v h, fun _ => h⟩
  have hnod : B1.g.nodes = cid.g.nodes := by rw [p2]; rfl
  -- play the rules of the reduced network
  obtain ⟨n, hUn, hOn, hkn⟩ := realize order hU j1.nodup hon (σ := B1.k) (fun d hd => by
    have hdB : d ∈ B1.g.nodes := by rw [hnod]; exact hon d hd
    refine ⟨(p1.scope d hdB).mono (fun u hu => hu.imp id (fun q => j2.sub u d ((hE1 u d).1 q))), fun b hb => ?_, fun b hb => ?_⟩
    · show ((cid.dom d).map _).sum = 1
      rw [← p3']
      exact p1.norm d hdB b (fun p hp => by rw [p3']; exact hb p (j2.sub p d ((hE1 p d).1 hp)))
    · exact p1.nonneg d hdB b (fun u hu => by rw [p3']; exact hb u (hu.imp id (fun q => j2.sub u d ((hE1 u d).1 q)))))
  have hk : ∀ v ∈ cid.g.nodes, ∀ b, cid.InDom b → n.kernel v b = B1.k v b := by
    intro v _ b hb
    by_cases hvo : v ∈ order
    · exact hkn v hvo b hb
    · rw [hOn.kernel hvo, p4 v hvo]
      show _ = n1.kernel v b
      rw [hO1'.kernel hvo]
  have hW : ∀ F, n.bn.W F = B1.W F := by
    intro F
    unfold BN.W
    show sumOver n.dom n.g.nodes _ _ = _
    rw [hnod, p3', hOn.dom, hOn.g]
    apply sumOver_congr
    intro b hb _
    congr 1
    show ((n.m.g.nodes).map (fun v => n.kernel v b)).prod = (cid.m.g.nodes.map (fun v => B1.k v b)).prod
    rw [hOn.m]
    congr 1
    apply List.map_congr_left
    intro v hv
    exact hk v hv b hb
  have hEU : n.EU a = r := by
    refine le_antisymm (hr.bound n hUn (hOn.congr hmem)) ?_
    rw [← hEU1, EU_eq hU1, EU_eq hUn, hO1.m, hOn.m, hW]
    exact p5
  refine ⟨n, hUn, hOn.congr hmem, hEU ▸ hr, fun x v hv E hE => ?_⟩
  obtain ⟨hxn, hvd, _⟩ := hv.2 (x, v) (by simp)
  simp only at hxn hvd
  rw [hOn.g] at hxn
  have hxB : x ∈ B1.g.nodes := by rw [hnod]; exact hxn
  have hdep : DependsOn (fun b : Assign => if E b then (1 : Rat) else 0) (fun w => w ∈ B1.g.nodes ∧ ¬ B1.g.DescEq x w) := by
    intro b b' hbb
    have : E b = E b' := hE b b' (fun d hd => hbb d ?_)
    · simp only [this]
    · rcases hd with ⟨h2, h3, h4⟩ | ⟨h2, h3⟩
      swap
      · exact ⟨by rw [hnod]; exact h2, fun q => h3 (ReflTransGen.mono (fun u w h => j2.sub u w ((hE1 u w).1 h)) _ _ q)⟩
      have hdn := hon d ((hmem d).2 h2)
      refine ⟨by rw [hnod]; exact hdn, fun q => ?_⟩
      obtain ⟨rg', b0, order', k1, _, _, k2, k3⟩ := C54_admits_ri hA hn pick tpick hset h1 hrec (x := x) (d := d) hxn hdn
      rw [q1] at k1
      cases k1
      rw [h4] at k2
      cases k2
      have q' : rg.g.DescEq x d := ReflTransGen.mono (fun u w h => (hE1 u w).1 h) _ _ q
      obtain ⟨p, hp⟩ := descEq_iff_path.1 q'
      exact absurd (k3.2 ⟨fun e => h3 e.symm, p, hp⟩) (by simp)
  rw [PDo_eq_W (fun p hp => (hv.2 p hp).1), P_eq_W, hW]
  have hvd' : v ∈ B1.dom x := by rw [p3', ← hOn.dom]; exact hvd
  have key := BN.W_nondesc p1 (BN.isRule_ind p1 hxB hvd') (BN.isRule_k p1 hxB) hdep
  rw [BN.withRule_self] at key
  rw [← key]
  unfold BN.W
  show sumOver n.dom n.g.nodes _ _ = sumOver B1.dom B1.g.nodes _ _
  rw [hnod, p3', hOn.dom, hOn.g]
  apply sumOver_congr
  intro b hb _
  congr 1
  show ((n.m.g.nodes).map (fun w => (n.doBN [(x, v)]).k w b)).prod = (B1.g.nodes.map (fun w => (B1.withRule x fun a => if a x = v then 1 else 0).k w b)).prod
  rw [hnod, hOn.m]
  congr 1
  apply List.map_congr_left
  intro w hw
  show (if w ∈ [x] then _ else n.kernel w b) = (if w = x then _ else B1.k w) b
  by_cases e : w = x
  · subst e
    simp
  · rw [if_neg (by simpa using e), if_neg e]
    exact hk w hw b hb

/-- in the example `D` observes `A` and `X`, a copy of `W`; only the observation of `A` matters -/
example : (ExW.net (1 / 3)).Usable ∧ admitsRi (fun _ => 0) (fun _ => 0) id (ExW.net (1 / 3)) "D" "W" = .ok false ∧
    admitsRi (fun _ => 0) (fun _ => 0) id (ExW.net (1 / 3)) "D" "A" = .ok true ∧
    ∃ n, n.Usable ∧ OnlyRules (ExW.net (1 / 3)) (ExW.net (1 / 3)).m.decisions n ∧ (ExW.net (1 / 3)).IsMaxEU 0 (n.EU 0) ∧
      ∀ c, n.PDo [("W", 0)] (fun b => decide (b "D" = c)) = n.P (fun b => decide (b "D" = c)) := by
  have h1 : admitsRi (fun _ => 0) (fun _ => 0) id (ExW.net (1 / 3)) "D" "W" = .ok false := by decide +kernel
  have hm : (ExW.net (1 / 3)).m = exInfoNet.m := by rw [ExW.usable.2]; rfl
  refine ⟨ExW.usable.1, h1, by decide +kernel, ?_⟩
  obtain ⟨n, a1, a2, a3, a4⟩ := C87_no_response ExW.usable.1 (pick := fun _ => 0) (tpick := fun _ => 0) (setOrd := id)
    (by show NamesOk (ExW.net (1 / 3)).m.g; rw [hm]; exact ⟨by decide +kernel, by decide +kernel⟩) (fun _ => List.Perm.refl _)
    (by rw [hm]; decide) (by rw [hm]; exact ExW.recalls) (a := 0) (by rw [hm]; decide)
  refine ⟨n, a1, a2, a3, fun c => a4 "W" 0 ⟨by simp, ?_⟩ _ (fun b b' hb => ?_)⟩
  · intro p hp
    rw [List.mem_singleton] at hp
    subst hp
    have hd : n.dom "W" = [0, 1] := by rw [a2.dom]; decide +kernel
    refine ⟨?_, by rw [hd]; decide, Or.inl (by rw [hd]; decide)⟩
    show "W" ∈ n.m.g.nodes
    rw [a2.m, hm]
    decide
  · have := hb "D" (Or.inl ⟨by decide +kernel, by decide, h1⟩)
    simp only [this]

end Verif
