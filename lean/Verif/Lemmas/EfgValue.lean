import Verif.Lemmas.EfgRuns
import Verif.Lemmas.Optimal

/-!
# What the players can expect in the game tree
-/

namespace Verif

/-- what can be expected is unique -/
theorem Efg.Value.unique {t : Efg} {b : Behavior} {j : Nat} {idx : List Nat} {r r' : Rat} (h : t.Value b j idx r) (h' : t.Value b j idx r') :
    r = r' := by
  induction h generalizing r' with
  | leaf h1 h2 h3 =>
    cases h' with
    | leaf _ h2' h3' =>
      rw [h2] at h2'; cases h2'
      rw [h3] at h3'; exact Option.some.inj h3'
    | move h1' _ _ => rw [h1] at h1'; cases h1'
  | @move idx mv rs h1 h2 h3 ih =>
    cases h' with
    | leaf h1' _ _ => rw [h1] at h1'; cases h1'
    | @move _ mv' rs' h1' h2' h3' =>
      rw [h1] at h1'; cases h1'
      have : rs = rs' := by
        apply List.ext_getElem (by omega)
        intro i hi hi'
        exact ih i _ (List.getElem?_eq_getElem hi) (h3' i _ (List.getElem?_eq_getElem hi'))
      rw [this]

theorem zipWith_map_mul {α : Type} (l : List α) (f g : α → Rat) :
    List.zipWith (· * ·) (l.map f) (l.map g) = l.map (fun x => f x * g x) := by
  induction l with
  | nil => rfl
  | cons x l ih => simp [ih]

namespace BN

/-- the weighted sum, when the nodes of an ancestral set are summed over last -/
theorem W_first {B B' : BN} (hB : B.Local) (hB' : B'.Local) (hg : B'.g = B.g) (hd : B'.dom = B.dom) {A : List Node} (hn : A.Nodup)
    (hA : ∀ v ∈ A, v ∈ B.g.nodes) (ha : B.Ancestral (· ∈ A)) (hk : ∀ v ∈ B.g.nodes, v ∉ A → B'.k v = B.k v)
    {E : List Node} (hE : (A ++ E).Perm B.g.nodes) {F : Assign → Rat} (a0 : Assign) (hF : DependsOn F (· ∈ B.g.nodes)) :
    B'.W F = sumOver B.dom A (fun a => B'.prod A a * sumOver B.dom E (fun b => B.prod E b * F b) a) a0 := by
  have hEn : (A ++ E).Nodup := hE.nodup_iff.2 hB.wf.nodesNodup
  have hdis := (List.nodup_append.1 hEn).2.2
  have ha' : B'.Ancestral (· ∈ A) := fun u v h hv => ha u v (hg ▸ h) hv
  have hA' : ∀ v ∈ A, v ∈ B'.g.nodes := fun v hv => hg ▸ hA v hv
  have hpE : ∀ b, B'.prod E b = B.prod E b := fun b => by
    unfold prod
    congr 1
    apply List.map_congr_left
    intro v hv
    rw [hk v (hE.mem_iff.1 (by simp [hv])) (fun h => hdis v h v hv rfl)]
  have hstart : B'.W F = sumOver B.dom (A ++ E) (fun a => B'.prod (A ++ E) a * F a) (fun _ => 0) := by
    unfold W
    rw [hg, hd, sumOver_perm hE]
    congr 1
    funext a
    rw [prod_perm B' hE]
  have hconst : ∀ a, sumOver B.dom (A ++ E) (fun a => B'.prod (A ++ E) a * F a) a =
      sumOver B.dom A (fun a => B'.prod A a * sumOver B.dom E (fun b => B.prod E b * F b) a) a := by
    intro a
    rw [sumOver_append]
    congr 1
    funext b
    rw [← sumOver_mul_left (prod_depends hB' hA' ha') (fun v hv h => hdis v h v hv rfl)]
    congr 1
    funext c
    rw [prod_append, hpE]
    ring
  rw [hstart, ← hconst]
  have hm : ∀ v ∈ A ++ E, v ∈ B'.g.nodes := fun v hv => hg ▸ hE.mem_iff.1 hv
  have hanc : B'.Ancestral (· ∈ A ++ E) := fun u v h _ => hE.mem_iff.2 (hg ▸ (hB'.wf.edgeNodes u v h).1)
  refine sumOver_depends ((prod_depends hB' hm hanc).mul (hF.mono (fun v hv => hE.mem_iff.2 hv))) _ _ ?_
  rintro v ⟨h1, h2⟩
  exact absurd h1 h2

/-- what is expected where the nodes of an ancestral set have been fixed -/
theorem W_fixed {B : BN} (hB : B.Prob) {A E : List Node} (hA : ∀ v ∈ A, v ∈ B.g.nodes) (hn : A.Nodup) {F : Assign → Rat}
    (hW : ∀ F a0, DependsOn F (· ∈ B.g.nodes) → B.W F = sumOver B.dom A (fun a => B.prod A a * sumOver B.dom E (fun b => B.prod E b * F b) a) a0)
    (hdis : ∀ v ∈ E, v ∉ A) (hF : DependsOn F (· ∈ B.g.nodes)) {a : Assign} (ha : ∀ v ∈ A, a v ∈ B.dom v) :
    B.W (fun b => F b * if ∀ v ∈ A, b v = a v then 1 else 0) = B.prod A a * sumOver B.dom E (fun b => B.prod E b * F b) a := by
  have hQ : DependsOn (fun b : Assign => if ∀ v ∈ A, b v = a v then (1 : Rat) else 0) (· ∈ A) := by
    intro b c hbc
    have : (∀ v ∈ A, b v = a v) ↔ ∀ v ∈ A, c v = a v := forall₂_congr (fun v hv => by rw [hbc v hv])
    simp only [this]
  rw [hW _ a (hF.mul (hQ.mono hA))]
  refine Eq.trans ?_ (sumOver_fix hn (fun v hv => hB.nodup v (hA v hv)) ha (Q := fun b => ∀ v ∈ A, b v = a v) (fun b h => h) (fun _ _ => rfl)
    (fun b => B.prod A b * sumOver B.dom E (fun b => B.prod E b * F b) b))
  congr 1
  funext b
  have := sumOver_mul_left (dom := B.dom) (vs := E) hQ hdis (fun b => B.prod E b * F b) b
  have e : (fun c => B.prod E c * (F c * if ∀ v ∈ A, c v = a v then 1 else 0)) =
      fun c => (if ∀ v ∈ A, c v = a v then (1 : Rat) else 0) * (B.prod E c * F c) := by
    funext c; ring
  rw [e, this]
  by_cases h : ∀ v ∈ A, b v = a v
  · simp only [if_pos h]; ring
  · simp only [if_neg h]; ring

end BN

namespace Net

theorem ctx_given {vs : List Node} {a b : Assign} : Ctx (Given vs a) b = true ↔ ∀ v ∈ vs, b v = a v := by
  simp [Ctx, Given]

/-- at every position the players can expect the sum over what may still happen -/
theorem tree_value {net : Net} {decs : List Node} {agents : List Agent} {nodes : List Node} {t : Efg} (ht : IsTree net decs agents nodes t)
    (hn : nodes.Nodup) {B : BN} (hdom : B.dom = net.dom) (hk : ∀ v ∈ nodes, DependsOn (B.k v) (fun u => u = v ∨ net.g.Edge u v))
    (hchance : ∀ v ∈ nodes, v ∉ decs → B.k v = net.kernel v) {b : Behavior}
    (hb : ∀ d ∈ decs, ∀ agent, net.m.role d = .decision agent → ∀ a, (∀ p, net.g.Edge p d → a p ∈ net.dom p) → ∀ i,
      t.keys.get? (agent, Given (net.g.parents d) a) = some i → b i = (net.dom d).map (fun x => B.k d (Assign.upd a d x)))
    {j : Nat} {agent : Agent} (hj : agents[j]? = some agent) :
    ∀ post vs, nodes = vs ++ post → ∀ a idx, At net.dom vs idx (vs.map a) →
      t.Value b j idx (sumOver net.dom post (fun c => B.prod post c * net.Worth (Given nodes c) agent) a)
  | [], vs, e, a, idx, hat => by
    rw [List.append_nil] at e
    subst e
    refine .leaf ?_ (ht.payoff a idx hat) ?_
    · cases h : t.moves.get? idx with
      | none => rfl
      | some mv =>
        obtain ⟨vs', v, post, a', e', h'⟩ := ht.noMore idx mv h
        have h1 := hat.lengths.1
        have h2 := h'.lengths.1
        rw [e'] at h1
        simp at h1
        omega
    · simp [hj, sumOver, BN.prod]
  | v :: post, vs, e, a, idx, hat => by
    have hv : v ∈ nodes := by simp [e]
    have hnd : (vs ++ v :: post).Nodup := e ▸ hn
    have hvs : v ∉ vs := fun h => (List.nodup_append.1 hnd).2.2 v h v (by simp) rfl
    have hpost : v ∉ post := (List.nodup_cons.1 (List.nodup_append.1 hnd).2.1).1
    have hdisj : ∀ w ∈ post, w ∉ vs := fun w hw h => (List.nodup_append.1 hnd).2.2 w h w (by simp [hw]) rfl
    have hpar : ∀ p, net.g.Edge p v → p ∈ vs := ht.closed vs v post e
    have hmv : ∃ mv, t.moves.get? idx = some mv ∧ odds b mv = (net.dom v).map (fun x => B.k v (Assign.upd a v x)) := by
      by_cases hd : v ∈ decs
      · obtain ⟨ag, i, s, h1, h2, h3, h4, h5, h6⟩ := ht.decision vs v post e hd a idx hat
        exact ⟨_, h3, hb v hd ag h1 a (fun p hp => hat.mem p (hpar p hp)) i h6⟩
      · refine ⟨_, ht.chance vs v post e hd a idx hat, ?_⟩
        rw [hchance v hv hd]
        rfl
    obtain ⟨mv, hmv, hodds⟩ := hmv
    have hval : sumOver net.dom (v :: post) (fun c => B.prod (v :: post) c * net.Worth (Given nodes c) agent) a =
        (List.zipWith (· * ·) (odds b mv)
          ((net.dom v).map (fun x => sumOver net.dom post (fun c => B.prod post c * net.Worth (Given nodes c) agent) (Assign.upd a v x)))).sum := by
      rw [hodds, zipWith_map_mul]
      simp only [sumOver]
      congr 1
      apply List.map_congr_left
      intro x _
      rw [← sumOver_mul_left (dom := net.dom) (hk v hv) (vs := post)]
      · congr 1
        funext c
        simp only [BN.prod, List.map_cons, List.prod_cons]
        ring
      · rintro w hw (rfl | h)
        · exact hpost hw
        · exact hdisj w hw (hpar w h)
    rw [hval]
    refine .move hmv (by simp [hodds]) ?_
    intro i r hr
    rw [List.getElem?_map] at hr
    cases hx : (net.dom v)[i]? with
    | none => simp [hx] at hr
    | some x =>
      rw [hx] at hr
      simp only [Option.map_some, Option.some.injEq] at hr
      subst hr
      refine tree_value ht hn hdom hk hchance hb hj post (vs ++ [v]) (by simp [e]) (Assign.upd a v x) (idx ++ [i]) ?_
      have : (vs ++ [v]).map (Assign.upd a v x) = vs.map a ++ [x] := by
        rw [List.map_append]
        congr 1
        · apply List.map_congr_left
          intro w hw
          exact Assign.upd_ne _ _ (fun h => hvs (h ▸ hw))
        · simp [Assign.upd]
      rw [this]
      exact hat.snoc hx

/-- the game has the payoffs of the network -/
theorem payoffs_eq {net net' : Net} (hU : net.Usable) (hU' : net'.Usable) {decs : List Node} {agents : List Agent} {nodes : List Node} {t : Efg}
    (ht : IsTree net decs agents nodes t) (hn : nodes.Nodup) (hm : ∀ v ∈ nodes, v ∈ net.g.nodes) (hdn : ∀ d ∈ decs, d ∈ nodes)
    (hO : OnlyRules net decs net') {b : Behavior} (hp : PlaysAs net' decs t b) {j : Nat} {agent : Agent} (hj : agents[j]? = some agent) :
    t.Value b j [] (net'.EU agent) := by
  have hanc : net.bn.Ancestral (· ∈ nodes) := by
    intro u v h hv
    obtain ⟨vs, post, e⟩ := List.append_of_mem hv
    show u ∈ nodes
    rw [e]
    exact List.mem_append_left _ (ht.closed vs v post e u h)
  have hB := bn_prob hU.good hU.normalised
  have hB' := bn_prob hU'.good hU'.normalised
  obtain ⟨E, hE, _⟩ := BN.exists_extension hB.toLocal hn hm
  have hEn : (nodes ++ E).Nodup := hE.nodup_iff.2 hB.wf.nodesNodup
  have hdis : ∀ v ∈ E, v ∉ nodes := fun v hv h => (List.nodup_append.1 hEn).2.2 v h v hv rfl
  have hk : ∀ v ∈ net.bn.g.nodes, v ∉ nodes → net'.bn.k v = net.bn.k v := fun v _ hv => by
    show net'.kernel v = net.kernel v
    funext a
    exact hO.kernel (fun h => hv (hdn v h)) a
  have hus : ∀ u ∈ (net.m.agentUtilities.get? agent).getD [], u ∈ net.g.nodes := by
    intro u hu
    cases h : net.m.agentUtilities.get? agent with
    | none => simp [h] at hu
    | some l =>
      rw [h] at hu
      exact hU.roles.nodes u (Or.inr (Dict.mem_keys.2 ⟨agent, (hU.roles.util.iff u agent).2 ⟨l, h, hu⟩⟩))
  have hF : DependsOn (fun a : Assign => (((net.m.agentUtilities.get? agent).getD []).map a).sum) (· ∈ net.bn.g.nodes) := by
    intro a c hac
    simp only
    congr 1
    exact List.map_congr_left (fun u hu => hac u (hus u hu))
  have hworth : ∀ a, (∀ v ∈ nodes, a v ∈ net.dom v) → net.Worth (Given nodes a) agent =
      sumOver net.dom E (fun c => net.bn.prod E c * (((net.m.agentUtilities.get? agent).getD []).map c).sum) a := by
    intro a ha
    have hpos : net.P (Ctx (Given nodes a)) ≠ 0 := by
      obtain ⟨idx, hidx⟩ := At.exists ha
      exact ht.possible a idx hidx
    have hW := fun (F : Assign → Rat) a0 (h : DependsOn F (· ∈ net.bn.g.nodes)) => BN.W_first (B := net.bn) (B' := net.bn) hB.toLocal hB.toLocal rfl rfl hn hm hanc (fun _ _ _ => rfl) hE (F := F) a0 h
    have e1 := BN.W_fixed hB hm hn hW hdis hF (a := a) ha
    have e2 : net.P (Ctx (Given nodes a)) = net.bn.prod nodes a := by
      rw [P_eq_W, BN.W_ancestral hB hn hm hanc (a := a)]
      · refine Eq.trans ?_ (sumOver_fix hn (fun v hv => hB.nodup v (hm v hv)) ha (Q := fun b => ∀ v ∈ nodes, b v = a v) (fun b h => h) (fun _ _ => rfl)
          (fun b => net.bn.prod nodes b))
        congr 1
        funext c
        simp only [ctx_given]
        by_cases h : ∀ v ∈ nodes, c v = a v
        · simp only [if_pos h, mul_one]
        · simp only [if_neg h, mul_zero]
      · intro c c' hcc
        have : (∀ v ∈ nodes, c v = a v) ↔ ∀ v ∈ nodes, c' v = a v := forall₂_congr (fun v hv => by rw [hcc v hv])
        simp only [ctx_given, this]
    unfold Worth
    rw [mean_sum hU.good hus]
    simp only [ctx_given]
    rw [e1, ← e2, mul_comm, mul_div_assoc, div_self hpos, mul_one]
    rfl
  have hval := tree_value ht hn (B := net'.bn) hO.dom (fun v hv => by
      have := kernel_depends hU'.good (v := v) (by rw [hO.g]; exact hm v hv)
      rw [hO.g] at this
      exact this) (fun v _ hd => by
      show net'.kernel v = net.kernel v
      funext a
      exact hO.kernel hd a) (b := b) (by
      intro d hd ag hr a ha i hi
      have := hp d hd ag (by rw [hO.m]; exact hr) a (by rw [hO.g, hO.dom]; exact ha) i (by rw [hO.g]; exact hi)
      rw [hO.dom] at this
      exact this) hj nodes [] rfl (fun _ => 0) [] .root
  rw [EU_eq hU', hO.m, BN.W_first hB.toLocal hB'.toLocal (congrArg Macid.g hO.m) hO.dom hn hm hanc hk hE (fun _ => 0) hF]
  refine Eq.mp (congrArg _ ?_) hval
  apply sumOver_congr
  intro c hc _
  rw [hworth c hc]
  rfl

end Net
end Verif
