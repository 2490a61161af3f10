import Verif.Spec.Answers
import Verif.Lemmas.Expect
import Verif.Props.Query
import Verif.Props.Value
import Verif.Props.Remove

/-!
# C110: answers to different queries fit together
-/

namespace Verif
open Net Graph Relation

theorem entry_of_conditional {f : Factor} {q : List Node} {dom : Node → List Outcome} {p : (Assign → Bool) → Rat} {F : Assign → Bool}
    (h : IsConditional f q dom p F) {a : Assign} (ha : ∀ v ∈ q, a v ∈ dom v) (hp : p F ≠ 0) :
    f.entry a = some (p (fun b => decide (∀ v ∈ q, b v = a v) && F b) / p F) := by
  obtain ⟨h1, h2, h3⟩ := h
  have hm : f.vars.map a ∈ product f.states := by
    rw [h2, mem_product, List.forall₂_map_left_iff, List.forall₂_map_right_iff, List.forall₂_same]
    intro v hv
    exact ha v (h1.mem_iff.1 hv)
  unfold Factor.entry
  rw [h3, get?_zip_map hm, if_neg hp]
  simp only [Option.join_some]
  congr 2
  congr 1
  funext b
  congr 1
  unfold Has
  rw [decide_eq_decide, List.map_inj_left]
  exact ⟨fun h v hv => h v (h1.mem_iff.2 hv), fun h v hv => h v (h1.mem_iff.1 hv)⟩

/-- what an answered query lists -/
theorem answer_entry {net : Net} (hU : net.Usable) {pick : Pick} {ord : List Node → List Node} (hord : ∀ l, (ord l).Perm l)
    {q : List Node} {ctx int : List (Node × Outcome)} (hi : net.IntOk int) {f : Factor}
    (h : (net.query pick ord q ctx int).2 = .ok f) (hpos : net.PDo int (Ctx ctx) ≠ 0) {a : Assign} (ha : net.InDom a) :
    f.entry a = some (net.PDo int (fun b => decide (∀ v ∈ q, b v = a v) && Ctx ctx b) / net.PDo int (Ctx ctx)) := by
  obtain ⟨dom', d1, _, _, hf⟩ := C39_query_exact hU hord hi h hpos
  obtain ⟨_, _, hq, _⟩ := C38_answered_only_if_legal hU hord hi h
  exact entry_of_conditional hf (fun v hv => (d1 v (hq v hv)).mem_iff.2 (ha v (hq v hv))) hpos

/-- **C110** The order in which variables are queried or listed does not matter, nor how often one is named. -/
theorem C110_order {net : Net} (hU : net.Usable) {pick pick' : Pick} {ord ord' : List Node → List Node} (hord : ∀ l, (ord l).Perm l)
    (hord' : ∀ l, (ord' l).Perm l) {q q' : List Node} {ctx ctx' int : List (Node × Outcome)} (hi : net.IntOk int)
    (hq : ∀ v, v ∈ q ↔ v ∈ q') (hc : ∀ p, p ∈ ctx ↔ p ∈ ctx') {f f' : Factor} (h : (net.query pick ord q ctx int).2 = .ok f)
    (h' : (net.query pick' ord' q' ctx' int).2 = .ok f') (hpos : net.PDo int (Ctx ctx) ≠ 0) {a : Assign} (ha : net.InDom a) :
    f.entry a = f'.entry a ∧ f.entry a ≠ none := by
  have e : Ctx ctx = Ctx ctx' := by
    funext b
    unfold Ctx
    rw [Bool.eq_iff_iff, List.all_eq_true, List.all_eq_true]
    exact forall_congr' (fun p => by rw [hc p])
  have e2 : ∀ b : Assign, decide (∀ v ∈ q, b v = a v) = decide (∀ v ∈ q', b v = a v) := fun b => by
    rw [decide_eq_decide]
    exact forall_congr' (fun v => by rw [hq v])
  rw [answer_entry hU hord hi h hpos ha, answer_entry hU hord' hi h' (by rw [← e]; exact hpos) ha, ← e]
  simp only [e2]
  exact ⟨trivial, by simp⟩

/-- **C110** The product rule: P(q₁, q₂ | context) = P(q₁ | context, q₂) · P(q₂ | context), under any intervention. -/
theorem C110_product_rule {net : Net} (hU : net.Usable) {pick : Pick} {ord : List Node → List Node} (hord : ∀ l, (ord l).Perm l)
    {q₁ q₂ : List Node} {ctx int : List (Node × Outcome)} (hi : net.IntOk int) {a : Assign} (ha : net.InDom a) {joint given other : Factor}
    (h : (net.query pick ord (q₁ ++ q₂) ctx int).2 = .ok joint) (h₂ : (net.query pick ord q₂ ctx int).2 = .ok other)
    (h₁ : (net.query pick ord q₁ (ctx ++ q₂.map (fun v => (v, a v))) int).2 = .ok given)
    (hpos : net.PDo int (Ctx (ctx ++ q₂.map (fun v => (v, a v)))) ≠ 0) :
    ∃ x y, given.entry a = some x ∧ other.entry a = some y ∧ joint.entry a = some (x * y) := by
  have hin : ∀ p ∈ int, p.1 ∈ net.g.nodes := fun p hp => (hi.2 p hp).1
  have hB := doBN_prob hU.good hU.normalised hi.1 (fun p hp => (hi.2 p hp).2.1)
  have ectx : ∀ b, Ctx (ctx ++ q₂.map (fun v => (v, a v))) b = (decide (∀ v ∈ q₂, b v = a v) && Ctx ctx b) := by
    intro b
    rw [ctx_append, Bool.and_comm]
    congr 1
    unfold Ctx
    rw [Bool.eq_iff_iff, List.all_eq_true]
    simp
  have hpos' : net.PDo int (Ctx ctx) ≠ 0 := by
    intro h0
    apply hpos
    have hle : net.PDo int (Ctx (ctx ++ q₂.map (fun v => (v, a v)))) ≤ net.PDo int (Ctx ctx) := by
      rw [PDo_eq_W hin, PDo_eq_W hin]
      apply BN.W_le hB
      intro b _
      rw [ectx]
      by_cases h1 : Ctx ctx b = true
      · simp only [h1, Bool.and_true]
        split <;> norm_num
      · simp [h1]
    have hge : 0 ≤ net.PDo int (Ctx (ctx ++ q₂.map (fun v => (v, a v)))) := by
      rw [PDo_eq_W hin]
      exact BN.W_nonneg hB (fun b _ => by split <;> norm_num)
    rw [h0] at hle
    exact le_antisymm hle hge
  refine ⟨_, _, answer_entry hU hord hi h₁ hpos ha, answer_entry hU hord hi h₂ hpos' ha, ?_⟩
  rw [answer_entry hU hord hi h hpos' ha]
  have e1 : net.PDo int (fun b => decide (∀ v ∈ q₂, b v = a v) && Ctx ctx b) =
      net.PDo int (Ctx (ctx ++ q₂.map (fun v => (v, a v)))) := by
    apply PDo_congr
    intro b _ _
    rw [ectx]
  have e2 : net.PDo int (fun b => decide (∀ v ∈ q₁ ++ q₂, b v = a v) && Ctx ctx b) =
      net.PDo int (fun b => decide (∀ v ∈ q₁, b v = a v) && Ctx (ctx ++ q₂.map (fun v => (v, a v))) b) := by
    apply PDo_congr
    intro b _ _
    rw [ectx, ← Bool.and_assoc, ← Bool.decide_and]
    congr 1
    rw [decide_eq_decide]
    simp only [List.mem_append]
    exact ⟨fun h => ⟨fun v hv => h v (Or.inl hv), fun v hv => h v (Or.inr hv)⟩, fun h v hv => hv.elim (h.1 v) (h.2 v)⟩
  rw [e1, e2, div_mul_div_cancel₀ hpos]

theorem setAll_map {a : Assign} : ∀ {vs : List Node} {xs : List Outcome}, vs.Nodup → xs.length = vs.length →
    vs.map (a.setAll vs xs) = xs := by
  intro vs xs hn hl
  apply List.ext_getElem?
  intro i
  rw [List.getElem?_map]
  by_cases hi : i < vs.length
  · have hi' : i < xs.length := by omega
    rw [List.getElem?_eq_getElem hi, List.getElem?_eq_getElem hi', Option.map_some]
    congr 1
    unfold Assign.setAll
    rw [get?_zip hn hi hi']
    rfl
  · rw [List.getElem?_eq_none (by omega), List.getElem?_eq_none (by omega)]
    rfl

/-- **C110** The sum rule: P(q₁ | context) is the sum of P(q₁, q₂ | context) over the values of q₂. -/
theorem C110_sum_rule {net : Net} (hU : net.Usable) {pick : Pick} {ord : List Node → List Node} (hord : ∀ l, (ord l).Perm l)
    {q₁ q₂ : List Node} {ctx int : List (Node × Outcome)} (hi : net.IntOk int) (hn : q₂.Nodup) (hdis : ∀ v ∈ q₂, v ∉ q₁)
    {a : Assign} (ha : net.InDom a) {joint part : Factor} (h : (net.query pick ord (q₁ ++ q₂) ctx int).2 = .ok joint)
    (h₁ : (net.query pick ord q₁ ctx int).2 = .ok part) (hpos : net.PDo int (Ctx ctx) ≠ 0) :
    part.entry a = some ((product (q₂.map net.dom)).map (fun xs => (joint.entry (a.setAll q₂ xs)).getD 0)).sum := by
  have hin : ∀ p ∈ int, p.1 ∈ net.g.nodes := fun p hp => (hi.2 p hp).1
  obtain ⟨_, _, hq, _⟩ := C38_answered_only_if_legal hU hord hi h
  rw [answer_entry hU hord hi h₁ hpos ha]
  congr 1
  have hxs : ∀ xs ∈ product (q₂.map net.dom), (joint.entry (a.setAll q₂ xs)).getD 0 =
      (net.doBN int).W (fun b => if q₂.map b = xs then (if decide (∀ v ∈ q₁, b v = a v) && Ctx ctx b then 1 else 0) else 0) *
        (net.PDo int (Ctx ctx))⁻¹ := by
    intro xs hx
    have hl : xs.length = q₂.length := by rw [Net.length_product hx, List.length_map]
    have hin' : net.InDom (a.setAll q₂ xs) := by
      intro v hv
      unfold Assign.setAll
      cases hg : Dict.get? (q₂.zip xs) v with
      | none => exact ha v hv
      | some x =>
        rw [mem_product, List.forall₂_map_right_iff] at hx
        have := Dict.mem_of_get? hg
        simp only [Option.getD_some]
        exact (List.forall₂_iff_zip.1 hx.flip).2 this
    rw [answer_entry hU hord hi h hpos hin', Option.getD_some, div_eq_mul_inv, PDo_eq_W hin]
    congr 2
    funext b
    have e1 : (∀ v ∈ q₁ ++ q₂, b v = a.setAll q₂ xs v) ↔ (∀ v ∈ q₁, b v = a v) ∧ q₂.map b = xs := by
      have e2 : q₂.map b = xs ↔ ∀ v ∈ q₂, b v = a.setAll q₂ xs v := by
        conv_lhs => rw [← setAll_map (a := a) hn hl]
        rw [List.map_inj_left]
      rw [e2]
      have e3 : ∀ v ∈ q₁, a.setAll q₂ xs v = a v := by
        intro v hv
        unfold Assign.setAll
        cases hg : Dict.get? (q₂.zip xs) v with
        | none => rfl
        | some x => exact absurd hv (hdis v (List.of_mem_zip (Dict.mem_of_get? hg)).1)
      simp only [List.mem_append]
      exact ⟨fun h => ⟨fun v hv => by rw [h v (Or.inl hv), e3 v hv], fun v hv => h v (Or.inr hv)⟩,
        fun h v hv => hv.elim (fun hv => by rw [h.1 v hv, e3 v hv]) (h.2 v)⟩
    have e4 : decide (∀ v ∈ q₁ ++ q₂, b v = a.setAll q₂ xs v) = decide ((∀ v ∈ q₁, b v = a v) ∧ q₂.map b = xs) :=
      decide_eq_decide.2 e1
    rw [e4]
    by_cases h1 : q₂.map b = xs <;> simp [h1]
  rw [List.map_congr_left hxs, List.sum_map_mul_right, div_eq_mul_inv]
  congr 1
  have := W_product (net.doBN int) net.dom (fun _ _ => .refl _) (fun v hv => (dom_props hU.good hv).1) (vars := q₂)
    (fun v hv => hq v (by simp [hv])) (fun b => if decide (∀ v ∈ q₁, b v = a v) && Ctx ctx b then 1 else 0) (fun _ => 1)
  simp only [one_mul] at this
  rw [this, PDo_eq_W hin]

theorem reached_single {g : Graph} {Z S : List Node} {t : Node} (h : Reached g Z S t) : ∃ s ∈ S, Reached g Z [s] t := by
  obtain ⟨h1, d, h2⟩ := h
  obtain ⟨s, hs, h3⟩ := ball_union.1 h2
  exact ⟨s, hs, h1, d, ball_union.2 ⟨s, by simp, h3⟩⟩

theorem exists_of_PDo {net : Net} {int : List (Node × Outcome)} {E : Assign → Bool} (h : net.PDo int E ≠ 0) :
    ∃ b, net.InDom b ∧ E b = true ∧ ∀ p ∈ int, b p.1 = p.2 := by
  by_contra hn
  push Not at hn
  apply h
  have e : net.PDo int E = net.PDo int (fun _ => false) := by
    apply PDo_congr
    intro b hb h2
    rw [Bool.eq_false_iff]
    intro h1
    obtain ⟨p, hp, hne⟩ := hn b hb h1
    exact hne (h2 p hp)
  rw [e]
  unfold PDo
  simp only [Bool.false_eq_true, false_and, if_false]
  exact sumOver_zero _ _

/-- **C110** Irrelevant observations.  If, in a copy on which the intervention has been carried out, no queried variable is
d-connected to any of the further observed ones given the context and the intervened variables, then these further observations
do not change the answer. -/
theorem C110_irrelevant_observations {net c c' : Net} (hU : net.Usable) {pick dpick : Pick} {ord : List Node → List Node}
    (hord : ∀ l, (ord l).Perm l) {q : List Node} {ctx more int : List (Node × Outcome)} (hi : net.IntOk int) (hc : net.copy = .ok c)
    (hc' : c.intervene int = (c', .ok ()))
    (hsep : ∀ z ∈ more.map (·.1), ∀ y ∈ q, isDConnected dpick c'.g z y (ctx.map (·.1) ++ int.map (·.1)) = .ok false)
    {f f' : Factor} (h : (net.query pick ord q (ctx ++ more) int).2 = .ok f) (h' : (net.query pick ord q ctx int).2 = .ok f')
    (hpos : net.PDo int (Ctx (ctx ++ more)) ≠ 0) {a : Assign} (ha : net.InDom a) : f.entry a = f'.entry a := by
  have hin : ∀ p ∈ int, p.1 ∈ net.g.nodes := fun p hp => (hi.2 p hp).1
  obtain ⟨k, k', e1, e2, hG, hN, hnodes, -, -, -, hP⟩ := hU.act hi
  rw [hc] at e1
  cases e1
  rw [hc'] at e2
  cases e2
  obtain ⟨hctx, -, hq, -⟩ := C38_answered_only_if_legal hU hord hi h
  obtain ⟨z, hz1, hz2, hz3⟩ := exists_of_PDo hpos
  rw [ctx_append, Bool.and_eq_true] at hz2
  have hZ : ∀ v ∈ ctx.map (·.1) ++ int.map (·.1), v ∈ c'.g.nodes := by
    intro v hv
    rw [hnodes]
    rcases List.mem_append.1 hv with hv | hv
    · obtain ⟨p, hp, rfl⟩ := List.mem_map.1 hv
      exact (hctx p (by simp [hp])).1
    · obtain ⟨p, hp, rfl⟩ := List.mem_map.1 hv
      exact hin p hp
  have hmore : ∀ v ∈ more.map (·.1), v ∈ c'.g.nodes := by
    intro v hv
    rw [hnodes]
    obtain ⟨p, hp, rfl⟩ := List.mem_map.1 hv
    exact (hctx p (by simp [hp])).1
  have key := BN.ci (bn_prob hG hN) (Z := ctx.map (·.1) ++ int.map (·.1)) (S := more.map (·.1)) (T := q) hZ
    (fun t ht hr => by
      obtain ⟨s, hs, hr'⟩ := reached_single hr
      exact not_reached_of_ok hG.wf (hmore s hs) hZ (hsep s hs t ht) hr') z
    (f := fun b => if Ctx more b then 1 else 0) (h := fun b => if ∀ v ∈ q, b v = a v then 1 else 0)
    (fun b b' hb => by
      show (if Ctx more b = true then (1 : Rat) else 0) = if Ctx more b' = true then 1 else 0
      rw [ctx_depends more b b' (fun v hv => hb v (Or.inr ⟨hv, hmore v hv⟩))])
    (fun b b' hb => by
      have : (∀ v ∈ q, b v = a v) ↔ ∀ v ∈ q, b' v = a v :=
        forall₂_congr (fun v hv => by rw [hb v (Or.inr ⟨hv, by rw [show c'.bn.g.nodes = c'.g.nodes from rfl, hnodes]; exact hq v hv⟩)])
      simp only [this])
  have hat : ∀ b : Assign, (∀ v ∈ ctx.map (·.1) ++ int.map (·.1), b v = z v) ↔ Ctx ctx b = true ∧ ∀ p ∈ int, b p.1 = p.2 := by
    intro b
    have hzc : ∀ p ∈ ctx, z p.1 = p.2 := by
      have := hz2.1
      unfold Ctx at this
      simpa using this
    have e1 : Ctx ctx b = true ↔ ∀ p ∈ ctx, b p.1 = p.2 := by simp [Ctx]
    rw [e1]
    constructor
    · intro hb
      exact ⟨fun p hp => by rw [hb p.1 (List.mem_append_left _ (List.mem_map_of_mem hp)), hzc p hp],
        fun p hp => by rw [hb p.1 (List.mem_append_right _ (List.mem_map_of_mem hp)), hz3 p hp]⟩
    · rintro ⟨h1, h2⟩ v hv
      rcases List.mem_append.1 hv with hv | hv
      · obtain ⟨p, hp, rfl⟩ := List.mem_map.1 hv
        rw [h1 p hp, hzc p hp]
      · obtain ⟨p, hp, rfl⟩ := List.mem_map.1 hv
        rw [h2 p hp, hz3 p hp]
  have conv : ∀ (E : Assign → Bool) (F : Assign → Rat), (∀ b, F b = if E b then 1 else 0) →
      c'.bn.W (BN.at_ (ctx.map (·.1) ++ int.map (·.1)) z F) = net.PDo int (fun b => E b && Ctx ctx b) := by
    intro E F hEF
    have : net.PDo int (fun b => E b && Ctx ctx b) =
        net.PDo int (fun b => (E b && Ctx ctx b) && decide (∀ p ∈ int, b p.1 = p.2)) := by
      apply PDo_congr
      intro b _ hb
      have : decide (∀ p ∈ int, b p.1 = p.2) = true := decide_eq_true hb
      rw [this, Bool.and_true]
    rw [this, ← hP, P_eq_W]
    congr 1
    funext b
    unfold BN.at_
    rw [hEF]
    by_cases h1 : ∀ v ∈ ctx.map (·.1) ++ int.map (·.1), b v = z v
    · rw [if_pos h1]
      obtain ⟨h2, h3⟩ := (hat b).1 h1
      have : decide (∀ p ∈ int, b p.1 = p.2) = true := decide_eq_true h3
      simp only [h2, this, Bool.and_true]
    · rw [if_neg h1]
      have : ((E b && Ctx ctx b) && decide (∀ p ∈ int, b p.1 = p.2)) = false := by
        rw [Bool.eq_false_iff]
        intro h2
        simp only [Bool.and_eq_true, decide_eq_true_eq] at h2
        exact h1 ((hat b).2 ⟨h2.1.2, h2.2⟩)
      rw [this]
      simp
  rw [conv (fun b => Ctx more b && decide (∀ v ∈ q, b v = a v)) _ (fun b => by
      by_cases h1 : Ctx more b = true <;> by_cases h2 : ∀ v ∈ q, b v = a v <;> simp [h1, h2]),
    conv (fun _ => true) _ (fun b => by simp), conv (fun b => Ctx more b) _ (fun b => rfl),
    conv (fun b => decide (∀ v ∈ q, b v = a v)) _ (fun b => by simp)] at key
  have e1 : net.PDo int (fun b => Ctx more b && Ctx ctx b) = net.PDo int (Ctx (ctx ++ more)) := by
    apply PDo_congr
    intro b _ _
    rw [ctx_append, Bool.and_comm]
  have e2 : net.PDo int (fun b => true && Ctx ctx b) = net.PDo int (Ctx ctx) := by
    apply PDo_congr
    intro b _ _
    simp
  have e3 : net.PDo int (fun b => (Ctx more b && decide (∀ v ∈ q, b v = a v)) && Ctx ctx b) =
      net.PDo int (fun b => decide (∀ v ∈ q, b v = a v) && Ctx (ctx ++ more) b) := by
    apply PDo_congr
    intro b _ _
    rw [ctx_append, Bool.and_comm (Ctx more b), Bool.and_assoc, Bool.and_comm (Ctx more b)]
  rw [e1, e2, e3] at key
  have hpos' : net.PDo int (Ctx ctx) ≠ 0 := by
    have hB := doBN_prob hU.good hU.normalised hi.1 (fun p hp => (hi.2 p hp).2.1)
    intro h0
    apply hpos
    have hle : net.PDo int (Ctx (ctx ++ more)) ≤ net.PDo int (Ctx ctx) := by
      rw [PDo_eq_W hin, PDo_eq_W hin]
      apply BN.W_le hB
      intro b _
      rw [ctx_append]
      by_cases h1 : Ctx ctx b = true
      · simp only [h1, Bool.true_and]
        split <;> norm_num
      · simp [h1]
    have hge : 0 ≤ net.PDo int (Ctx (ctx ++ more)) := by
      rw [PDo_eq_W hin]
      exact BN.W_nonneg hB (fun b _ => by split <;> norm_num)
    rw [h0] at hle
    exact le_antisymm hle hge
  rw [answer_entry hU hord hi h hpos ha, answer_entry hU hord hi h' hpos' ha]
  congr 1
  rw [div_eq_div_iff hpos hpos', key]
  ring

open BN in
theorem PDo_irrelevant {net : Net} (hU : net.Usable) {x : Node} {v : Outcome} {int : List (Node × Outcome)}
    (hi : net.IntOk ((x, v) :: int)) {E : Assign → Bool} {S : List Node} (hE : DependsOn E (· ∈ S)) (hS : ∀ y ∈ S, y ∈ net.g.nodes)
    (hnd : ∀ y ∈ S, ¬ (CutGraph net.g (int.map (·.1))).DescEq x y) : net.PDo ((x, v) :: int) E = net.PDo int E := by
  have hin : ∀ p ∈ (x, v) :: int, p.1 ∈ net.g.nodes := fun p hp => (hi.2 p hp).1
  have hi1 : net.IntOk int := ⟨(List.nodup_cons.1 hi.1).2, fun p hp => hi.2 p (by simp [hp])⟩
  have hB := doBN_prob hU.good hU.normalised hi.1 (fun p hp => (hi.2 p hp).2.1)
  have hB1 := doBN_prob hU.good hU.normalised hi1.1 (fun p hp => (hi1.2 p hp).2.1)
  have hA : ∀ w, w ∈ anc net.g (CutGraph net.g (int.map (·.1))) S ↔
      w ∈ net.g.nodes ∧ ∃ t ∈ S, (CutGraph net.g (int.map (·.1))).DescEq w t := fun w => mem_anc
  have hsub : ∀ u w, (CutGraph net.g (((x, v) :: int).map (·.1))).Edge u w → (CutGraph net.g (int.map (·.1))).Edge u w := by
    intro u w huw
    rw [mem_cutGraph] at huw ⊢
    exact ⟨huw.1, fun hm => huw.2 (by simp at hm ⊢; exact Or.inr hm)⟩
  have hanc : ∀ u w, (CutGraph net.g (int.map (·.1))).Edge u w → w ∈ anc net.g (CutGraph net.g (int.map (·.1))) S →
      u ∈ anc net.g (CutGraph net.g (int.map (·.1))) S := by
    intro u w huw hw
    obtain ⟨_, t, ht, h2⟩ := (hA w).1 hw
    exact (hA u).2 ⟨(hU.good.wf.edgeNodes u w (mem_cutGraph.1 huw).1).1, t, ht, .head huw h2⟩
  have hdep : DependsOn (fun b => if E b then (1 : Rat) else 0) (· ∈ anc net.g (CutGraph net.g (int.map (·.1))) S) :=
    (hE.mono (fun y hy => (hA y).2 ⟨hS y hy, y, hy, .refl⟩)).comp (fun b : Bool => if b then (1 : Rat) else 0)
  rw [PDo_eq_W hin, PDo_eq_W (fun p hp => hin p (by simp [hp])),
    BN.W_ancestral hB (U := anc net.g (CutGraph net.g (int.map (·.1))) S) (hU.good.wf.nodesNodup.filter _)
      (fun w hw => ((hA w).1 hw).1) (fun u w huw hw => hanc u w (hsub u w huw) hw) hdep (fun _ => 0),
    BN.W_ancestral hB1 (U := anc net.g (CutGraph net.g (int.map (·.1))) S) (hU.good.wf.nodesNodup.filter _)
      (fun w hw => ((hA w).1 hw).1) (fun u w huw hw => hanc u w huw hw) hdep (fun _ => 0)]
  apply sumOver_congr
  intro b _ _
  congr 1
  unfold BN.prod
  congr 1
  apply List.map_congr_left
  intro w hw
  have hwx : w ≠ x := by
    rintro rfl
    obtain ⟨_, t, ht, h2⟩ := (hA w).1 hw
    exact hnd t ht h2
  show (if w ∈ ((x, v) :: int).map (·.1) then _ else _) = (if w ∈ int.map (·.1) then _ else _)
  have e1 : w ∈ ((x, v) :: int).map (·.1) ↔ w ∈ int.map (·.1) := by simp [hwx]
  have e2 : (∀ p ∈ (x, v) :: int, p.1 = w → b w = p.2) ↔ ∀ p ∈ int, p.1 = w → b w = p.2 := by
    constructor
    · exact fun h p hp => h p (by simp [hp])
    · intro h p hp
      rcases List.mem_cons.1 hp with rfl | hp
      · exact fun e => absurd e.symm hwx
      · exact h p hp
  simp only [e1, e2]

/-- **C110** Irrelevant interventions.  If, after the other interventions, no queried and no observed variable is a descendant of
`x`, setting `x` does not change the answer. -/
theorem C110_irrelevant_intervention {net : Net} (hU : net.Usable) {pick pick' : Pick} {ord : List Node → List Node}
    (hord : ∀ l, (ord l).Perm l) {q : List Node} {ctx int : List (Node × Outcome)} {x : Node} {v : Outcome}
    (hi : net.IntOk ((x, v) :: int))
    (hnd : ∀ y, y ∈ q ∨ y ∈ ctx.map (·.1) → ¬ (CutGraph net.g (int.map (·.1))).DescEq x y) {f f' : Factor}
    (h : (net.query pick ord q ctx ((x, v) :: int)).2 = .ok f) (h' : (net.query pick' ord q ctx int).2 = .ok f')
    (hpos : net.PDo int (Ctx ctx) ≠ 0) {a : Assign} (ha : net.InDom a) : f.entry a = f'.entry a := by
  have hi1 : net.IntOk int := ⟨(List.nodup_cons.1 hi.1).2, fun p hp => hi.2 p (by simp [hp])⟩
  obtain ⟨hctx, -, hq, -⟩ := C38_answered_only_if_legal hU hord hi h
  have hS : ∀ y ∈ q ++ ctx.map (·.1), y ∈ net.g.nodes := by
    intro y hy
    rcases List.mem_append.1 hy with hy | hy
    · exact hq y hy
    · obtain ⟨p, hp, rfl⟩ := List.mem_map.1 hy
      exact (hctx p hp).1
  have hnd' : ∀ y ∈ q ++ ctx.map (·.1), ¬ (CutGraph net.g (int.map (·.1))).DescEq x y := fun y hy => hnd y (List.mem_append.1 hy)
  have hd : DependsOn (Ctx ctx) (· ∈ q ++ ctx.map (·.1)) := (ctx_depends ctx).mono (fun v hv => List.mem_append_right _ hv)
  have e1 := PDo_irrelevant hU hi hd hS hnd'
  have e2 := PDo_irrelevant hU hi (E := fun b => decide (∀ v ∈ q, b v = a v) && Ctx ctx b) (S := q ++ ctx.map (·.1))
    (fun b b' hb => by
      have : (∀ v ∈ q, b v = a v) ↔ ∀ v ∈ q, b' v = a v :=
        forall₂_congr (fun v hv => by rw [hb v (List.mem_append_left _ hv)])
      show (decide (∀ v ∈ q, b v = a v) && Ctx ctx b) = (decide (∀ v ∈ q, b' v = a v) && Ctx ctx b')
      rw [hd b b' hb, decide_eq_decide.2 this]) hS hnd'
  rw [answer_entry hU hord hi h (by rw [e1]; exact hpos) ha, answer_entry hU hord hi1 h' hpos ha, e1, e2]

/-- **C110** The hypotheses are met in the network with A → B, A → D → U and A → U, where A is 1 with probability 3/4, B repeats A,
and U is 1 iff D matches A.  With D set to 1, the answers for U and A together, for U alone, for A alone and for U given A fit
together; B is separated from U by A and D, and observing it changes nothing; setting it changes nothing either, although it
was observed to be 1 for certain. -/
theorem C110_example :
    ExRm.net.Usable ∧ ExRm.net.IntOk [("B", 0), ("D", 1)] ∧
    (ExRm.net.query (fun _ _ => 0) id ["U", "A"] [] [("D", 1)]).2 =
      .ok ⟨["U", "A"], [[0, 1], [0, 1]], [some (1 / 4), some 0, some 0, some (3 / 4)]⟩ ∧
    (ExRm.net.query (fun _ _ => 0) id ["A"] [] [("D", 1)]).2 = .ok ⟨["A"], [[0, 1]], [some (1 / 4), some (3 / 4)]⟩ ∧
    (ExRm.net.query (fun _ _ => 0) id ["U"] [] [("D", 1)]).2 = .ok ⟨["U"], [[0, 1]], [some (1 / 4), some (3 / 4)]⟩ ∧
    (ExRm.net.query (fun _ _ => 0) id ["U"] [("A", 1)] [("D", 1)]).2 = .ok ⟨["U"], [[0, 1]], [some 0, some 1]⟩ ∧
    (ExRm.net.query (fun _ _ => 0) id ["U"] [("A", 1), ("B", 1)] [("D", 1)]).2 = .ok ⟨["U"], [[0, 1]], [some 0, some 1]⟩ ∧
    (ExRm.net.query (fun _ _ => 0) id ["U"] [("A", 1)] [("B", 0), ("D", 1)]).2 = .ok ⟨["U"], [[0, 1]], [some 0, some 1]⟩ ∧
    ExRm.net.PDo [("D", 1)] (Ctx [("A", 1), ("B", 1)]) = 3 / 4 ∧
    (∃ c c', ExRm.net.copy = .ok c ∧ c.intervene [("D", 1)] = (c', .ok ()) ∧
      isDConnected (fun _ _ => 0) c'.g "B" "U" ["A", "D"] = .ok false ∧ isDConnected (fun _ _ => 0) c'.g "B" "U" ["D"] = .ok true) ∧
    (∀ y, y ∈ ["U"] ∨ y ∈ ["A"] → ¬ (CutGraph ExRm.net.g ["D"]).DescEq "B" y) := by
  obtain ⟨hU, hm, -⟩ := ExRm.net_usable
  have hi : ExRm.net.IntOk [("B", 0), ("D", 1)] := by
    refine ⟨by decide, fun p hp => ?_⟩
    simp only [List.mem_cons, List.not_mem_nil, or_false] at hp
    rcases hp with rfl | rfl <;> exact ⟨by decide +kernel, by decide +kernel, Or.inl (by decide +kernel)⟩
  have hi1 : ExRm.net.IntOk [("D", 1)] := ⟨by decide, fun p hp => hi.2 p (List.mem_cons_of_mem _ hp)⟩
  refine ⟨hU, hi, by decide +kernel, by decide +kernel, by decide +kernel, by decide +kernel, by decide +kernel, by decide +kernel,
    by decide +kernel, ?_, ?_⟩
  · obtain ⟨c, c', e1, e2, -⟩ := hU.act hi1
    refine ⟨c, c', e1, e2, ?_⟩
    have e3 : c' = (match ExRm.net.copy with | .ok c => (c.intervene [("D", 1)]).1 | .error _ => ExRm.net) := by
      rw [e1]
      show c' = (c.intervene [("D", 1)]).1
      rw [e2]
    rw [e3]
    decide +kernel
  · intro y hy hd
    rcases hd.cases_head with e | ⟨w, hw, -⟩
    · subst e
      simp at hy
    · have := (mem_cutGraph.1 hw).1
      rw [show ExRm.net.g = ExRm.m.g by rw [← hm]] at this
      revert this
      simp [Graph.Edge, ExRm.m]

end Verif
