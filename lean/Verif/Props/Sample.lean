import Verif.Props.Structural
import Verif.Lemmas.Topo

/-!
# C91: `sample` draws from the joint distribution
-/

namespace Verif

open Graph Relation Net

/-- the assignment a sampled dictionary stands for -/
def reading (s : Dict Node Outcome) : Assign := fun v => (Dict.get? s v).getD 0

private theorem reading_snoc {s : Dict Node Outcome} {v : Node} (hv : v ∉ s.keys) (x : Outcome) :
    reading (s ++ [(v, x)]) = Assign.upd (reading s) v x := by
  funext w
  unfold reading Assign.upd
  rw [get?_append]
  by_cases h : w = v
  · subst h
    have : Dict.get? s w = none := Dict.get?_none.2 hv
    simp [this, Dict.get?]
  · cases hs : Dict.get? s w with
    | some y => simp [h, hs]
    | none => simp [h, hs, Ne.symm h, Dict.get?]

private theorem drawProb_eq {net : Net} (hG : Good net) (s : Dict Node Outcome) (v : Node) (x : Outcome) :
    net.drawProb s v x = net.kernel v (Assign.upd (reading s) v x) := by
  unfold kernel drawProb
  cases hc : net.cpds.get? v with
  | none => rfl
  | some c =>
    have hve : v ∉ c.evidence := fun hm => hG.wf.acyclic v (TransGen.single (((hG.fits v c hc).parents v).1 hm))
    have : c.evidence.map (Assign.upd (reading s) v x) = c.evidence.map (fun u => (Dict.get? s u).getD 0) := by
      apply List.map_congr_left
      intro u hu
      rw [Assign.upd_ne _ _ (by rintro rfl; exact hve hu)]
      rfl
    simp only [this, Assign.upd_same]

/-- the law of the rest of the draws -/
private theorem draws_law {net : Net} (hG : Good net) : ∀ {vs : List Node} {s : Dict Node Outcome}, vs.Nodup →
    (∀ v ∈ vs, v ∈ net.g.nodes) → (∀ v ∈ vs, v ∉ s.keys) → vs.Pairwise (fun u v => ¬ net.g.Edge v u) →
    ∀ f : Assign → Rat, ((net.draws vs s).map (fun p => p.2 * f (reading p.1))).sum =
      sumOver net.dom vs (fun a => (vs.map (fun v => net.kernel v a)).prod * f a) (reading s)
  | [], s, _, _, _, _, f => by simp [draws, sumOver]
  | v :: vs, s, hn, hvs, hs, hp, f => by
    rw [List.nodup_cons] at hn
    rw [List.pairwise_cons] at hp
    have hv := hvs v (by simp)
    unfold draws sumOver
    rw [List.map_flatMap, List.flatMap_def, List.sum_flatten, List.map_map]
    congr 1
    apply List.map_congr_left
    intro x hx
    have hs' : ∀ w ∈ vs, w ∉ Dict.keys (s ++ [(v, x)]) := by
      intro w hw hm
      simp only [Dict.keys, List.map_append, List.map_cons, List.map_nil, List.mem_append, List.mem_singleton] at hm
      rcases hm with hm | rfl
      · exact hs w (by simp [hw]) hm
      · exact hn.1 hw
    have ih := draws_law hG (s := s ++ [(v, x)]) hn.2 (fun w hw => hvs w (by simp [hw])) hs' hp.2 f
    rw [reading_snoc (hs v (by simp))] at ih
    have hk := drawProb_eq hG s v x
    simp only [Function.comp]
    rw [hk, List.map_map]
    have e1 : ((draws net vs (s ++ [(v, x)])).map ((fun p : Dict Node Outcome × Rat => p.2 * f (reading p.1)) ∘
        fun p => (p.1, net.kernel v (Assign.upd (reading s) v x) * p.2))).sum =
        net.kernel v (Assign.upd (reading s) v x) * ((draws net vs (s ++ [(v, x)])).map (fun p => p.2 * f (reading p.1))).sum := by
      rw [← List.sum_map_mul_left]
      congr 1
      apply List.map_congr_left
      intro p _
      simp only [Function.comp]
      ring
    rw [e1, ih, ← sumOver_mul_const]
    apply sumOver_congr
    intro b _ hb
    have hkb : net.kernel v b = net.kernel v (Assign.upd (reading s) v x) := by
      apply kernel_depends hG hv
      intro u hu
      apply hb
      intro hm
      rcases hu with rfl | hu
      · exact hn.1 hm
      · exact hp.1 u hm hu
    rw [List.map_cons, List.prod_cons, hkb]
    ring

private theorem draws_keys {net : Net} : ∀ {vs : List Node} {s : Dict Node Outcome} {p : Dict Node Outcome × Rat}, p ∈ net.draws vs s →
    p.1.keys = s.keys ++ vs ∧ ∀ q ∈ p.1, q ∈ s ∨ (q.1 ∈ vs ∧ q.2 ∈ net.dom q.1)
  | [], s, p, h => by
    simp only [draws, List.mem_singleton] at h
    subst h
    exact ⟨by simp, fun q hq => .inl hq⟩
  | v :: vs, s, p, h => by
    simp only [draws, List.mem_flatMap, List.mem_map] at h
    obtain ⟨x, hx, q, hq, rfl⟩ := h
    obtain ⟨h1, h2⟩ := draws_keys hq
    refine ⟨by simpa [Dict.keys] using h1, fun t ht => ?_⟩
    rcases h2 t ht with h3 | h3
    · rcases List.mem_append.1 h3 with h3 | h3
      · exact .inl h3
      · simp only [List.mem_singleton] at h3
        subst h3
        exact .inr ⟨by simp, hx⟩
    · exact .inr ⟨by simp [h3.1], h3.2⟩

/-- **C91** `sample` on a parameterised network: every call returns a dictionary with exactly one outcome of its domain for
every variable, and the probability that the returned dictionary meets a condition is the probability of the condition
under the joint distribution of the network, in whatever topological order the variables are visited. -/
theorem C91_sample {net : Net} (hG : Good net) (pick : List Node → Nat) :
    ∃ law, sample pick net = .ok law ∧
      (∀ p ∈ law, p.1.keys.Perm net.g.nodes ∧ ∀ v ∈ net.g.nodes, ∃ x ∈ net.dom v, p.1.get? v = some x) ∧
      ∀ E : Assign → Bool, ((law.filter (fun p => E (reading p.1))).map (·.2)).sum = net.P E := by
  obtain ⟨t1, t2, _⟩ := topoSort_spec pick hG.wf.nodesNodup hG.wf.edgesNodup (fun e he => hG.wf.edgeNodes e.1 e.2 he)
  obtain ⟨order, ho⟩ := t2 hG.wf.acyclic
  obtain ⟨o1, o2, _⟩ := t1 order ho
  have hnd : order.Nodup := o1.nodup_iff.2 hG.wf.nodesNodup
  refine ⟨net.draws order [], ?_, fun p hp => ?_, fun E => ?_⟩
  · unfold sample
    rw [checkModel_good hG, ho]
    rfl
  · obtain ⟨h1, h2⟩ := draws_keys hp
    have h1' : p.1.keys = order := by simpa [Dict.keys] using h1
    refine ⟨h1' ▸ o1, fun v hv => ?_⟩
    obtain ⟨x, hx⟩ := Dict.mem_keys.1 (show v ∈ p.1.keys by rw [h1']; exact o1.mem_iff.2 hv)
    rcases h2 _ (Dict.mem_of_get? hx) with h | h
    · simp at h
    · exact ⟨x, h.2, hx⟩
  · have := draws_law hG (s := []) hnd (fun v hv => o1.mem_iff.1 hv) (by simp [Dict.keys])
      (o2.imp (fun h k => h (.single k))) (fun a => if E a then 1 else 0)
    have e1 : (((net.draws order []).filter (fun p => E (reading p.1))).map (·.2)).sum =
        ((net.draws order []).map (fun p => p.2 * (if E (reading p.1) then 1 else 0))).sum := by
      generalize net.draws order [] = l
      induction l with
      | nil => rfl
      | cons p l ih =>
        rw [List.filter_cons]
        by_cases hE : E (reading p.1) = true
        · simp [hE, ih]
        · simp [hE, ih]
    rw [e1, this, sumOver_perm o1]
    unfold P
    apply sumOver_congr
    intro a _ _
    rw [(o1.map _).prod_eq]
    split <;> simp

private theorem zip_map_pair (l : List Node) (a : Assign) : l.zip (l.map a) = l.map (fun v => (v, a v)) := by
  induction l with
  | nil => rfl
  | cons v l ih => simp [ih]

/-- what the draws look like -/
private theorem draws_shape {net : Net} : ∀ {vs : List Node} {s : Dict Node Outcome} {p : Dict Node Outcome × Rat}, p ∈ net.draws vs s →
    ∃ xs : List Outcome, xs.length = vs.length ∧ p.1 = s ++ vs.zip xs
  | [], s, p, h => by
    simp only [draws, List.mem_singleton] at h
    subst h
    exact ⟨[], rfl, by simp⟩
  | v :: vs, s, p, h => by
    simp only [draws, List.mem_flatMap, List.mem_map] at h
    obtain ⟨x, hx, q, hq, rfl⟩ := h
    obtain ⟨xs, h1, h2⟩ := draws_shape hq
    exact ⟨x :: xs, by simp [h1], by simp [h2]⟩

private theorem draws_all {net : Net} {a : Assign} : ∀ {vs : List Node} {s : Dict Node Outcome}, (∀ v ∈ vs, a v ∈ net.dom v) →
    ∃ p ∈ net.draws vs s, p.1 = s ++ vs.map (fun v => (v, a v))
  | [], s, _ => ⟨(s, 1), by simp [draws], by simp⟩
  | v :: vs, s, h => by
    obtain ⟨p, h1, h2⟩ := draws_all (net := net) (vs := vs) (s := s ++ [(v, a v)]) (fun w hw => h w (by simp [hw]))
    refine ⟨(p.1, net.drawProb s v (a v) * p.2), ?_, by simp [h2]⟩
    simp only [draws, List.mem_flatMap, List.mem_map]
    exact ⟨a v, h v (by simp), p, h1, rfl⟩

private theorem draws_nodup {net : Net} : ∀ {vs : List Node} {s : Dict Node Outcome}, (∀ v ∈ vs, (net.dom v).Nodup) →
    ((net.draws vs s).map (·.1)).Nodup
  | [], s, _ => by simp [draws]
  | v :: vs, s, h => by
    unfold draws
    rw [List.map_flatMap]
    rw [List.nodup_flatMap]
    refine ⟨fun x _ => ?_, ?_⟩
    · rw [List.map_map]
      exact draws_nodup (vs := vs) (s := s ++ [(v, x)]) (fun w hw => h w (by simp [hw]))
    · refine (h v (by simp)).imp ?_
      intro x y hxy t ht1 ht2
      simp only [List.map_map, List.mem_map, Function.comp] at ht1 ht2
      obtain ⟨p, hp, rfl⟩ := ht1
      obtain ⟨q, hq, e⟩ := ht2
      obtain ⟨xs, _, e1⟩ := draws_shape hp
      obtain ⟨ys, _, e2⟩ := draws_shape hq
      rw [e1, e2, List.append_assoc, List.append_assoc, List.append_cancel_left_eq] at e
      simp at e
      exact hxy e.1.symm

private theorem draws_weight {net : Net} (hG : Good net) : ∀ {vs : List Node} {s : Dict Node Outcome}, vs.Nodup →
    (∀ v ∈ vs, v ∈ net.g.nodes) → (∀ v ∈ vs, v ∉ s.keys) → vs.Pairwise (fun u v => ¬ net.g.Edge v u) →
    ∀ p ∈ net.draws vs s, p.2 = (vs.map (fun v => net.kernel v (reading p.1))).prod ∧ ∀ u, u ∉ vs → reading p.1 u = reading s u
  | [], s, _, _, _, _, p, h => by
    simp only [draws, List.mem_singleton] at h
    subst h
    exact ⟨by simp, fun _ _ => rfl⟩
  | v :: vs, s, hn, hvs, hs, hp, p, h => by
    rw [List.nodup_cons] at hn
    rw [List.pairwise_cons] at hp
    simp only [draws, List.mem_flatMap, List.mem_map] at h
    obtain ⟨x, hx, q, hq, rfl⟩ := h
    have hs' : ∀ w ∈ vs, w ∉ Dict.keys (s ++ [(v, x)]) := by
      intro w hw hm
      simp only [Dict.keys, List.map_append, List.map_cons, List.map_nil, List.mem_append, List.mem_singleton] at hm
      rcases hm with hm | rfl
      · exact hs w (by simp [hw]) hm
      · exact hn.1 hw
    obtain ⟨h1, h2⟩ := draws_weight hG hn.2 (fun w hw => hvs w (by simp [hw])) hs' hp.2 q hq
    rw [reading_snoc (hs v (by simp))] at h2
    refine ⟨?_, fun u hu => ?_⟩
    · simp only [List.map_cons, List.prod_cons]
      rw [← h1, drawProb_eq hG]
      congr 1
      apply kernel_depends hG (hvs v (by simp))
      intro u hu
      refine (h2 u ?_).symm
      intro hm
      rcases hu with rfl | hu
      · exact hn.1 hm
      · exact hp.1 u hm hu
    · simp only [List.mem_cons, not_or] at hu
      rw [h2 u hu.2, Assign.upd_ne _ _ hu.1]

/-- **C91** With proper probabilities the weights are a probability distribution, and each dictionary is listed once: the
probability that `sample` returns a given combination of outcomes is the product of its CPD entries. -/
theorem C91_sample_exactly {net : Net} (hG : Good net) (hN : net.Normalised) {pick : List Node → Nat} {law : List (Dict Node Outcome × Rat)}
    (h : sample pick net = .ok law) :
    (law.map (·.2)).sum = 1 ∧ (∀ p ∈ law, p.2 = (net.g.nodes.map (fun v => net.kernel v (reading p.1))).prod ∧ 0 ≤ p.2) ∧
      ∀ a, net.InDom a → ∃ p ∈ law, (∀ v ∈ net.g.nodes, p.1.get? v = some (a v)) ∧
        ∀ q ∈ law, (∀ v ∈ net.g.nodes, q.1.get? v = some (a v)) → q = p := by
  obtain ⟨law', k1, k2, k3⟩ := C91_sample hG pick
  rw [h] at k1
  cases k1
  obtain ⟨t1, t2, _⟩ := topoSort_spec pick hG.wf.nodesNodup hG.wf.edgesNodup (fun e he => hG.wf.edgeNodes e.1 e.2 he)
  obtain ⟨order, ho⟩ := t2 hG.wf.acyclic
  obtain ⟨o1, o2, _⟩ := t1 order ho
  have hnd : order.Nodup := o1.nodup_iff.2 hG.wf.nodesNodup
  have hl : law = net.draws order [] := by
    unfold sample at h
    rw [checkModel_good hG, ho] at h
    exact (Except.ok.inj h).symm
  have hmem : ∀ v, v ∈ order ↔ v ∈ net.g.nodes := fun v => o1.mem_iff
  refine ⟨?_, fun p hp => ?_, fun a ha => ?_⟩
  · have e := k3 (fun _ => true)
    rw [List.filter_true] at e
    rw [e, P_eq_W]
    simpa using BN.W_one (bn_prob hG hN)
  · have hin : net.InDom (reading p.1) := by
      intro v hv
      obtain ⟨x, hx, e⟩ := (k2 p hp).2 v hv
      unfold reading
      rw [e]
      exact hx
    rw [hl] at hp
    have hw := (draws_weight hG hnd (fun v hv => (hmem v).1 hv) (by simp [Dict.keys]) (o2.imp (fun h k => h (.single k))) p hp).1
    rw [(o1.map _).prod_eq] at hw
    refine ⟨hw, ?_⟩
    rw [hw]
    exact BN.prod_nonneg (bn_prob hG hN) (U := net.g.nodes) (fun _ h => h) hin
  · subst hl
    obtain ⟨p, hp, e⟩ := draws_all (net := net) (vs := order) (s := []) (a := a) (fun v hv => ha v ((hmem v).1 hv))
    have huniq : ∀ q ∈ net.draws order [], (∀ v ∈ net.g.nodes, q.1.get? v = some (a v)) → q.1 = order.map (fun v => (v, a v)) := by
      intro q hq hqa
      obtain ⟨xs, l1, l2⟩ := draws_shape hq
      rw [List.nil_append] at l2
      have : xs = order.map a := by
        apply List.ext_getElem (by simp [l1])
        intro i h1 h2
        have hi : i < order.length := by omega
        have := hqa order[i] ((hmem _).1 (List.getElem_mem hi))
        rw [l2, get?_zip hnd hi h1] at this
        simpa using this
      rw [l2, this]
      exact zip_map_pair order a
    refine ⟨p, hp, fun v hv => ?_, fun q hq hqa => ?_⟩
    · rw [e, List.nil_append]
      rw [← zip_map_pair]
      exact get?_zip_map ((hmem v).2 hv)
    · have hq1 := huniq q hq hqa
      have hN' := draws_nodup (net := net) (vs := order) (s := []) (fun v hv => (dom_props hG ((hmem v).1 hv)).1)
      exact List.inj_on_of_nodup_map hN' hq hp (by rw [hq1, e, List.nil_append])

/-- the three variables of a structural model -/
example : (ExSc.net (1 / 10)).Usable ∧ (match sample (fun _ => 0) (ExSc.net (1 / 10)) with
    | .ok law => some (law.filter (fun p => decide (p.2 ≠ 0)))
    | .error _ => none) = some [([("A", 0), ("B", 0), ("C", 0)], 9 / 20), ([("A", 0), ("B", 1), ("C", 1)], 1 / 20),
      ([("A", 1), ("B", 0), ("C", 1)], 1 / 20), ([("A", 1), ("B", 1), ("C", 2)], 9 / 20)] :=
  ⟨ExSc.usable_coarse.1, by decide +kernel⟩

/-- **C91** Without all CPDs there is no sample: pgmpy's check raises ValueError. -/
theorem C91_incomplete (pick : List Node → Nat) {net : Net} {v : Node} (hv : v ∈ net.g.nodes) (h : net.cpds.get? v = none) :
    sample pick net = .error .value := by
  have : net.checkModel = false := by
    unfold checkModel
    rw [List.all_eq_false]
    exact ⟨v, hv, by simp [h]⟩
  simp [sample, this]

end Verif
