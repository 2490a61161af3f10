import Verif.Spec.Efg
import Verif.Props.Value

/-!
# Growing the game tree
-/

namespace Verif
open Relation Graph Macid Net BN

/-! ### probabilities of a family -/

namespace BN

/-- a node after an ancestral set that contains its parents -/
theorem W_family {B : BN} (hB : B.Prob) {A : List Node} (hn : A.Nodup) (hA : ∀ v ∈ A, v ∈ B.g.nodes)
    (ha : B.Ancestral (· ∈ A)) {v : Node} (hv : v ∈ B.g.nodes) (hvA : v ∉ A) (hp : ∀ p, B.g.Edge p v → p ∈ A)
    (hd : (B.dom v).Nodup) {x : Outcome} (hx : x ∈ B.dom v) {f : Assign → Rat} (hf : DependsOn f (· ∈ A)) {c : Rat}
    (hc : ∀ b, f b ≠ 0 → B.k v (Assign.upd b v x) = c) :
    B.W (fun b => if b v = x then f b else 0) = c * B.W f := by
  have hn' : (A ++ [v]).Nodup := by
    rw [List.nodup_append]
    refine ⟨hn, by simp, ?_⟩
    rintro u hu w hw rfl
    simp only [List.mem_singleton] at hw
    exact hvA (hw ▸ hu)
  have hA' : ∀ w ∈ A ++ [v], w ∈ B.g.nodes := by
    intro w hw
    rcases List.mem_append.1 hw with h | h
    · exact hA w h
    · simp only [List.mem_singleton] at h; rw [h]; exact hv
  have ha' : B.Ancestral (· ∈ A ++ [v]) := by
    intro u w huw hw
    rcases List.mem_append.1 hw with h | h
    · exact List.mem_append_left _ (ha u w huw h)
    · simp only [List.mem_singleton] at h
      subst h
      exact List.mem_append_left _ (hp u huw)
  have hf' : DependsOn (fun b : Assign => if b v = x then f b else 0) (· ∈ A ++ [v]) := by
    intro a b hab
    have e1 : a v = b v := hab v (by simp)
    have e2 : f a = f b := hf a b (fun w hw => hab w (List.mem_append_left _ hw))
    simp only [e1, e2]
  rw [W_ancestral hB hn' hA' ha' hf' (fun _ => 0), W_ancestral hB hn hA ha hf (fun _ => 0), sumOver_append, ← sumOver_mul_const]
  apply sumOver_congr
  intro b _ _
  have hprod : ∀ y, B.prod A (Assign.upd b v y) = B.prod A b := fun y =>
    prod_depends hB.toLocal hA ha _ _ (fun w hw => Assign.upd_ne b y (fun e => hvA (e ▸ hw)))
  have hfy : ∀ y, f (Assign.upd b v y) = f b := fun y =>
    hf _ _ (fun w hw => Assign.upd_ne b y (fun e => hvA (e ▸ hw)))
  simp only [sumOver]
  have : ∀ y, B.prod (A ++ [v]) (Assign.upd b v y) * (if Assign.upd b v y v = x then f (Assign.upd b v y) else 0) =
      if y = x then B.prod A b * B.k v (Assign.upd b v y) * f b else 0 := by
    intro y
    rw [prod_append, hprod, hfy]
    simp only [prod, List.map_cons, List.map_nil, List.prod_cons, List.prod_nil, mul_one]
    have : Assign.upd b v y v = y := by simp [Assign.upd]
    rw [this]
    split
    · rfl
    · simp
  simp only [this]
  have h2 := sum_indicator_mul hd hx (fun y => B.prod A b * B.k v (Assign.upd b v y) * f b)
  rw [h2]
  by_cases hfb : f b = 0
  · simp [hfb]
  · rw [hc b hfb]
    ring

end BN

namespace Net

/-! ### queries in a connected network -/

theorem query_plain {net net' : Net} (hG : Good net) (hN : net.Normalised) (hj : Joined net.g) {pick : Pick} {ord : List Node → List Node}
    (hord : ∀ l, (ord l).Perm l) {q : List Node} {ctx : List (Node × Outcome)} {f : Factor}
    (h : net.query pick ord q ctx [] = (net', .ok f)) :
    net' = net ∧ q ≠ [] ∧ (∀ v ∈ q, v ∈ net.g.nodes) ∧ (∀ v ∈ q, v ∉ ctx.map (·.1)) ∧
      IsConditional f q net.dom net.P (Ctx ctx) ∧ f.vars = ord q := by
  have h2 : (net.query pick ord q ctx []).2 = .ok f := by rw [h]
  obtain ⟨h1, _, h3⟩ := query_ok hG h2
  obtain ⟨k1, k2, k3, k4, k5, k6⟩ := queryOn_ok hG hN hord (fun p hp => (h1 p hp).1) h3
  obtain ⟨x, hx⟩ := List.exists_mem_of_ne_nil _ k1
  refine ⟨?_, k1, k2, k3, ?_, k6⟩
  · have := C37_query_connected hG pick ord q ctx (fun v hv => ⟨x, hx, hj x (k2 x hx) v hv⟩)
    rw [h] at this
    exact this
  · have hcx : ctxOf net q ctx = ctx := by
      apply List.filter_eq_self.2
      intro p hp
      rw [decide_eq_true_eq, mem_keepOf hG.wf]
      exact ⟨x, hx, hj x (k2 x hx) p.1 (h1 p hp).1⟩
    rw [hcx] at k5
    exact k5

/-- a factor without missing entries belongs to a possible context -/
theorem conditional_pos {net : Net} (hG : Good net) {q : List Node} (hq : ∀ v ∈ q, v ∈ net.g.nodes) {ctx : List (Node × Outcome)}
    {f : Factor} (hf : IsConditional f q net.dom net.P (Ctx ctx)) (hn : f.values.any Option.isNone = false) : net.P (Ctx ctx) ≠ 0 := by
  obtain ⟨hf1, hf2, hf3⟩ := hf
  intro h0
  have hne : product f.states ≠ [] := by
    rw [hf2]
    have : ∀ l : List Node, (∀ v ∈ l, v ∈ net.g.nodes) → ∃ xs, xs ∈ product (l.map net.dom) := by
      intro l
      induction l with
      | nil => intro _; exact ⟨[], by simp [product]⟩
      | cons v l ih =>
        intro hl
        obtain ⟨xs, hxs⟩ := ih (fun w hw => hl w (by simp [hw]))
        have hv := hl v (by simp)
        obtain ⟨x, hx⟩ := List.exists_mem_of_ne_nil _ (dom_props hG hv).2
        exact ⟨x :: xs, by
          simp only [List.map_cons, product, List.mem_flatMap, List.mem_map]
          exact ⟨x, hx, xs, hxs, rfl⟩⟩
    obtain ⟨xs, hxs⟩ := this f.vars (fun v hv => hq v (hf1.mem_iff.1 hv))
    exact List.ne_nil_of_mem hxs
  obtain ⟨xs, hxs⟩ := List.exists_mem_of_ne_nil _ hne
  have : f.values.any Option.isNone = true := by
    rw [List.any_eq_true]
    refine ⟨none, ?_, rfl⟩
    rw [hf3]
    exact List.mem_map.2 ⟨xs, hxs, by simp [h0]⟩
  rw [this] at hn
  cases hn

theorem expectedUtility_plain {net net' : Net} (hG : Good net) (hN : net.Normalised) (hj : Joined net.g) {pick : Pick} {ord : List Node → List Node}
    (hord : ∀ l, (ord l).Perm l) {ctx : List (Node × Outcome)} {ag : Agent} {r : Rat}
    (h : net.expectedUtility pick ord ctx [] ag = (net', .ok r)) : net' = net ∧ r = net.Worth ctx ag ∧ net.P (Ctx ctx) ≠ 0 := by
  unfold expectedUtility at h
  cases h1 : net.m.agentUtilities.get ag with
  | error e => simp [h1] at h
  | ok us =>
    simp only [h1] at h
    unfold expectedValue at h
    generalize hx : net.query pick ord us ctx [] = x at h
    obtain ⟨n, y⟩ := x
    cases y with
    | error e => simp at h
    | ok f =>
      simp only at h
      obtain ⟨k1, k2, k3, k4, k5, k6⟩ := query_plain hG hN hj hord hx
      cases he : evOf f with
      | error e => rw [he] at h; simp at h
      | ok l =>
        rw [he] at h
        simp only [Prod.mk.injEq, Except.ok.injEq] at h
        have hnn : f.values.any Option.isNone = false := by
          unfold evOf at he
          split at he
          · simp at he
          · rename_i hh; simpa only [Bool.not_eq_true] using hh
        have hpos := conditional_pos hG k3 k5 hnn
        have hP : net.PDo [] = net.P := funext (PDo_nil net)
        have := evOf_conditional hG (int := []) (by simp) (by rw [hP]; exact hpos) k3 (fun _ _ => .refl _) (by rw [hP]; exact k5)
        rw [he] at this
        simp only [Except.ok.injEq] at this
        refine ⟨h.1 ▸ k1, ?_, hpos⟩
        rw [← h.2, this, k6]
        unfold Worth
        rw [Dict.get_ok.1 h1, Option.getD_some]
        exact ((hord us).map _).sum_eq

end Net

/-! ### positions -/

theorem At.lengths {dom : Node → List Outcome} {vs : List Node} {idx : List Nat} {xs : List Outcome} (h : At dom vs idx xs) :
    idx.length = vs.length ∧ xs.length = vs.length := by
  induction h with
  | root => simp
  | branch _ _ ih => simp [ih]

theorem At.functional {dom : Node → List Outcome} {vs : List Node} {idx : List Nat} {xs xs' : List Outcome} (h : At dom vs idx xs)
    (h' : At dom vs idx xs') : xs = xs' := by
  induction h generalizing xs' with
  | root => cases h'; rfl
  | branch hx _ ih =>
    cases h' with
    | branch hx' h' =>
      rw [hx] at hx'
      rw [Option.some.inj hx', ih h']

theorem At.injective {dom : Node → List Outcome} {vs : List Node} (hd : ∀ v ∈ vs, (dom v).Nodup) {idx idx' : List Nat} {xs : List Outcome}
    (h : At dom vs idx xs) (h' : At dom vs idx' xs) : idx = idx' := by
  induction h generalizing idx' with
  | root => cases h'; rfl
  | @branch v vs i idx x xs hx _ ih =>
    cases h' with
    | @branch _ _ i' idx' _ _ hx' h' =>
      rw [ih (fun w hw => hd w (by simp [hw])) h']
      congr 1
      obtain ⟨hi, e⟩ := List.getElem?_eq_some_iff.1 hx
      obtain ⟨hi', e'⟩ := List.getElem?_eq_some_iff.1 hx'
      exact (List.Nodup.getElem_inj_iff (hd v (by simp))).1 (e.trans e'.symm)

theorem At.snoc {dom : Node → List Outcome} {vs : List Node} {idx : List Nat} {xs : List Outcome} (h : At dom vs idx xs) {v : Node} {i : Nat}
    {x : Outcome} (hx : (dom v)[i]? = some x) : At dom (vs ++ [v]) (idx ++ [i]) (xs ++ [x]) := by
  induction h with
  | root => exact .branch hx .root
  | branch h1 _ ih => exact .branch h1 ih

theorem At.unsnoc {dom : Node → List Outcome} : ∀ {vs : List Node} {v : Node} {idx' : List Nat} {xs' : List Outcome},
    At dom (vs ++ [v]) idx' xs' → ∃ idx i xs x, idx' = idx ++ [i] ∧ xs' = xs ++ [x] ∧ At dom vs idx xs ∧ (dom v)[i]? = some x
  | [], v, idx', xs', h => by
    cases h with
    | @branch _ _ i idx x xs hx h =>
      cases h
      exact ⟨[], i, [], x, rfl, rfl, .root, hx⟩
  | w :: vs, v, idx', xs', h => by
    cases h with
    | @branch _ _ i idx x xs hx h =>
      obtain ⟨idx1, i1, xs1, x1, rfl, rfl, h1, h2⟩ := At.unsnoc h
      exact ⟨i :: idx1, i1, x :: xs1, x1, rfl, rfl, .branch hx h1, h2⟩

theorem at_product {dom : Node → List Outcome} : ∀ {vs : List Node} {idx : List Nat},
    idx ∈ product (vs.map (fun v => List.range (dom v).length)) ↔ ∃ xs, At dom vs idx xs
  | [], idx => by
    simp only [List.map_nil, product, List.mem_singleton]
    exact ⟨fun h => h ▸ ⟨[], .root⟩, fun ⟨xs, h⟩ => by cases h; rfl⟩
  | v :: vs, idx => by
    simp only [List.map_cons, product, List.mem_flatMap, List.mem_map, List.mem_range]
    constructor
    · rintro ⟨i, hi, idx', h, rfl⟩
      obtain ⟨xs, hxs⟩ := at_product.1 h
      exact ⟨_, .branch (List.getElem?_eq_getElem hi) hxs⟩
    · rintro ⟨xs, h⟩
      cases h with
      | @branch _ _ i idx x xs hx h =>
        exact ⟨i, (List.getElem?_eq_some_iff.1 hx).1, idx, at_product.2 ⟨xs, h⟩, rfl⟩

/-- every instantiation is given by an assignment -/
theorem At.assign {dom : Node → List Outcome} {vs : List Node} (hn : vs.Nodup) {idx : List Nat} {xs : List Outcome} (h : At dom vs idx xs) :
    ∃ a : Assign, xs = vs.map a := by
  have : ∀ {vs : List Node} {xs : List Outcome}, vs.Nodup → xs.length = vs.length → ∃ a : Assign, xs = vs.map a := by
    intro vs
    induction vs with
    | nil => intro xs _ hl; exact ⟨fun _ => 0, by simpa using hl⟩
    | cons v vs ih =>
      intro xs hn hl
      cases xs with
      | nil => simp at hl
      | cons x xs =>
        rw [List.nodup_cons] at hn
        obtain ⟨a, ha⟩ := ih hn.2 (by simpa using hl)
        refine ⟨Assign.upd a v x, ?_⟩
        rw [List.map_cons]
        congr 1
        · simp [Assign.upd]
        · rw [ha]
          exact List.map_congr_left (fun w hw => (Assign.upd_ne a x (fun e : w = v => hn.1 (e ▸ hw))).symm)
  exact this hn h.lengths.2

theorem At.exists {dom : Node → List Outcome} : ∀ {vs : List Node} {a : Assign}, (∀ v ∈ vs, a v ∈ dom v) → ∃ idx, At dom vs idx (vs.map a)
  | [], a, _ => ⟨[], .root⟩
  | v :: vs, a, h => by
    obtain ⟨idx, hidx⟩ := At.exists (vs := vs) (fun w hw => h w (by simp [hw]))
    obtain ⟨i, hi, e⟩ := List.getElem_of_mem (h v (by simp))
    exact ⟨i :: idx, .branch (by rw [List.getElem?_eq_getElem hi, e]) hidx⟩

theorem At.mem {dom : Node → List Outcome} {vs : List Node} {idx : List Nat} {a : Assign} (h : At dom vs idx (vs.map a)) :
    ∀ v ∈ vs, a v ∈ dom v := by
  induction vs generalizing idx with
  | nil => simp
  | cons v vs ih =>
    cases h with
    | branch hx h =>
      intro w hw
      rcases List.mem_cons.1 hw with rfl | hw
      · exact List.mem_of_getElem? hx
      · exact ih h w hw

theorem given_get (vs : List Node) (a : Assign) (v : Node) : Dict.get? (Given vs a) v = if v ∈ vs then some (a v) else none := by
  induction vs with
  | nil => rfl
  | cons d l ih =>
    simp only [Given, List.map_cons, Dict.get?, List.mem_cons]
    by_cases h : d = v
    · simp [h]
    · rw [if_neg (by simpa using h)]
      have : Dict.get? (List.map (fun v => (v, a v)) l) v = _ := ih
      rw [this]
      simp [Ne.symm h]

theorem given_set {vs : List Node} {a : Assign} {v : Node} (hv : v ∉ vs) (x : Outcome) :
    Dict.set (Given vs a) v x = Given (vs ++ [v]) (Assign.upd a v x) := by
  induction vs with
  | nil => simp [Given, Dict.set, Assign.upd]
  | cons w vs ih =>
    simp only [List.mem_cons, not_or] at hv
    simp only [Given, List.map_cons, Dict.set, List.cons_append]
    rw [if_neg (by simpa using Ne.symm hv.1), Assign.upd_ne a x (Ne.symm hv.1)]
    congr 1
    exact ih hv.2

theorem given_inj {vs : List Node} {a b : Assign} (h : vs.map a = vs.map b) : Given vs a = Given vs b := by
  unfold Given
  exact List.map_congr_left (fun v hv => by rw [List.map_inj_left.1 h v hv])

theorem given_eq_map {vs vs' : List Node} {a b : Assign} (h : Given vs a = Given vs' b) : vs = vs' ∧ vs.map a = vs'.map b := by
  have h1 := congrArg (List.map Prod.fst) h
  have h2 := congrArg (List.map Prod.snd) h
  simp only [Given, List.map_map, Function.comp_def, List.map_id'] at h1 h2
  exact ⟨h1, h2⟩

end Verif
