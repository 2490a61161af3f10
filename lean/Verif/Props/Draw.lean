import Verif.Model.Draw
import Verif.Lemmas.Roles
import Verif.Lemmas.Cpd
import Mathlib.Tactic.Linarith
import Mathlib.Algebra.Order.Field.Basic

/-!
# C112: what the pictures show
-/

namespace Verif
open Macid

/-! ### Lemmas -/

theorem linspace_inj {n i j : Nat} (hi : i < n) (hj : j < n) : linspace n i = linspace n j ↔ i = j := by
  refine ⟨fun h => ?_, fun h => by rw [h]⟩
  unfold linspace at h
  by_cases hn : n ≤ 1
  · omega
  · rw [if_neg hn, if_neg hn] at h
    have h1 : (0 : Rat) < (n : Rat) - 1 := by
      have : (1 : Rat) < (n : Rat) := by exact_mod_cast (by omega : 1 < n)
      linarith
    have h2 : (i : Rat) = (j : Rat) := by
      rw [div_left_inj' h1.ne'] at h
      exact h
    exact_mod_cast h2

theorem agentColor_ok {agents : List Agent} {a : Agent} (h : a ∈ agents) :
    Draw.agentColor agents a = .ok (.scale (linspace agents.length (agents.idxOf a))) := if_pos h

theorem color_owned {m : Macid} (hc : m.Consistent) {v : Node} {a : Agent} (h : m.role v = .decision a ∨ m.role v = .utility a) :
    Draw.color m v = Draw.agentColor m.agents a := by
  unfold Draw.color
  rcases h with h | h
  · rw [role_decision.1 h]
  · have h1 := (role_utility hc).1 h
    have h2 : m.decisionAgent.get? v = none := by
      cases h3 : m.decisionAgent.get? v with
      | none => rfl
      | some b =>
        have := role_decision.2 h3
        rw [h] at this
        cases this
    rw [h2, h1]

theorem role_cases (m : Macid) (v : Node) :
    (m.role v = .chance ∧ m.decisionAgent.get? v = none ∧ m.utilityAgent.get? v = none) ∨
    (∃ a, m.role v = .decision a ∧ m.decisionAgent.get? v = some a) ∨
    (∃ a, m.role v = .utility a ∧ m.decisionAgent.get? v = none ∧ m.utilityAgent.get? v = some a) := by
  unfold role
  cases h : m.decisionAgent.get? v with
  | some a => exact Or.inr (Or.inl ⟨a, rfl, rfl⟩)
  | none =>
    cases h2 : m.utilityAgent.get? v with
    | some a => exact Or.inr (Or.inr ⟨a, rfl, rfl, rfl⟩)
    | none => exact Or.inl ⟨rfl, rfl, rfl⟩

theorem mem_dec_iff {m : Macid} {v : Node} : v ∈ m.decisions ↔ ∃ a, m.role v = .decision a := by
  rw [mem_decisions]
  exact ⟨fun ⟨a, h⟩ => ⟨a, role_decision.2 h⟩, fun ⟨a, h⟩ => ⟨a, role_decision.1 h⟩⟩

/-! ### The theorems -/

/-- **C112** The shape of a node tells its role: squares are decisions, diamonds utilities and circles chance nodes. -/
theorem C112_shape (m : Macid) (v : Node) :
    (Draw.shape m v = .ok "s" ↔ ∃ a, m.role v = .decision a) ∧ (Draw.shape m v = .ok "D" ↔ ∃ a, m.role v = .utility a) ∧
    (Draw.shape m v = .ok "o" ↔ m.role v = .chance) := by
  unfold Draw.shape
  rcases role_cases m v with ⟨h, h1, h2⟩ | ⟨a, h, h1⟩ | ⟨a, h, h1, h2⟩
  · have n1 : v ∉ m.decisions := by rw [mem_decisions, h1]; simp
    have n2 : v ∉ m.utilities := by rw [mem_utilities, h2]; simp
    rw [if_neg n1, if_neg n2, h]; simp
  · have n1 : v ∈ m.decisions := mem_decisions.2 ⟨a, h1⟩
    rw [if_pos n1, h]; simp
  · have n1 : v ∉ m.decisions := by rw [mem_decisions, h1]; simp
    have n2 : v ∈ m.utilities := mem_utilities.2 ⟨a, h2⟩
    rw [if_neg n1, if_pos n2, h]; simp

/-- **C112** In a CID the colour tells the role, too. -/
theorem C112_cid_color (m : Macid) (v : Node) :
    (Draw.colorCid m v = .ok (.name "lightblue") ↔ ∃ a, m.role v = .decision a) ∧
    (Draw.colorCid m v = .ok (.name "yellow") ↔ ∃ a, m.role v = .utility a) ∧
    (Draw.colorCid m v = .ok (.name "lightgray") ↔ m.role v = .chance) := by
  unfold Draw.colorCid
  rcases role_cases m v with ⟨h, h1, h2⟩ | ⟨a, h, h1⟩ | ⟨a, h, h1, h2⟩
  · have n1 : v ∉ m.decisions := by rw [mem_decisions, h1]; simp
    have n2 : v ∉ m.utilities := by rw [mem_utilities, h2]; simp
    rw [if_neg n1, if_neg n2, h]; simp
  · have n1 : v ∈ m.decisions := mem_decisions.2 ⟨a, h1⟩
    rw [if_pos n1, h]; simp
  · have n1 : v ∉ m.decisions := by rw [mem_decisions, h1]; simp
    have n2 : v ∈ m.utilities := mem_utilities.2 ⟨a, h2⟩
    rw [if_neg n1, if_pos n2, h]; simp

/-- **C112** In a MACID the colour tells the owner: chance nodes are gray, and two other nodes have the same place on the colour
scale exactly if they belong to the same agent.  (Every owner of a decision has a utility.) -/
theorem C112_macid_color {m : Macid} (hc : m.Consistent) (hown : ∀ d a, m.role d = .decision a → a ∈ m.agents) :
    (∀ v, m.role v = .chance ↔ Draw.color m v = .ok (.name "lightgray")) ∧
    (∀ v a, m.role v = .decision a ∨ m.role v = .utility a → ∃ x, Draw.color m v = .ok (.scale x) ∧ 0 ≤ x ∧ x ≤ 1) ∧
    ∀ v w a b, m.role v = .decision a ∨ m.role v = .utility a → m.role w = .decision b ∨ m.role w = .utility b →
      (Draw.color m v = Draw.color m w ↔ a = b) := by
  have hag : ∀ v a, m.role v = .decision a ∨ m.role v = .utility a → a ∈ m.agents := by
    rintro v a (h | h)
    · exact hown v a h
    · obtain ⟨l, hl, _⟩ := (hc.util.iff v a).1 ((role_utility hc).1 h)
      exact Dict.mem_keys.2 ⟨l, hl⟩
  have hcol : ∀ v a, m.role v = .decision a ∨ m.role v = .utility a →
      Draw.color m v = .ok (.scale (linspace m.agents.length (m.agents.idxOf a))) := fun v a h => by
    rw [color_owned hc h, agentColor_ok (hag v a h)]
  refine ⟨fun v => ?_, fun v a h => ⟨_, hcol v a h, ?_, ?_⟩, fun v w a b hv hw => ?_⟩
  · rcases role_cases m v with ⟨h, h1, h2⟩ | ⟨a, h, h1⟩ | ⟨a, h, h1, h2⟩
    · unfold Draw.color; rw [h1, h2]; simp [h]
    · rw [hcol v a (Or.inl h), h]; simp
    · rw [hcol v a (Or.inr h), h]; simp
  · unfold linspace
    split
    · exact le_refl _
    · rename_i hn
      have : (1 : Rat) < (m.agents.length : Rat) := by exact_mod_cast (by omega : 1 < m.agents.length)
      exact div_nonneg (by exact_mod_cast Nat.zero_le _) (by linarith)
  · have hlt := List.idxOf_lt_length_of_mem (hag v a h)
    unfold linspace
    split
    · exact zero_le_one
    · rename_i hn
      have h1 : (1 : Rat) < (m.agents.length : Rat) := by exact_mod_cast (by omega : 1 < m.agents.length)
      have h2 : ((m.agents.idxOf a : Nat) : Rat) + 1 ≤ (m.agents.length : Rat) := by exact_mod_cast hlt
      rw [div_le_one (by linarith)]
      linarith
  · rw [hcol v a hv, hcol w b hw]
    constructor
    · intro h
      have h' : linspace m.agents.length (m.agents.idxOf a) = linspace m.agents.length (m.agents.idxOf b) := by
        injection h with h
        injection h
      have := (linspace_inj (List.idxOf_lt_length_of_mem (hag v a hv)) (List.idxOf_lt_length_of_mem (hag w b hw))).1 h'
      exact (List.idxOf_inj (hag v a hv)).1 this
    · intro h; rw [h]

/-- **C112** (what goes wrong) `agents` lists only the owners of utilities: a MACID with a decision of an agent without utility
cannot be drawn. -/
theorem C112_player_without_utility {m : Macid} {d : Node} {a : Agent} (hd : d ∈ m.g.nodes) (hr : m.role d = .decision a)
    (ha : a ∉ m.agents) (shape label : Node → Py String) (layout : Node → Rat × Rat) :
    Draw.color m d = .error .value ∧ ∃ e, Draw.draw (Draw.color m) shape label layout m.g = .error e := by
  have h : Draw.color m d = .error .value := by
    unfold Draw.color; rw [role_decision.1 hr]; exact if_neg ha
  refine ⟨h, ?_⟩
  unfold Draw.draw
  cases h1 : mapPy label m.g.nodes with
  | error e => exact ⟨e, rfl⟩
  | ok ts =>
    obtain ⟨e, he⟩ := mapPy_error_of (f := Draw.paint (Draw.color m) shape) hd (e := .value) (by unfold Draw.paint; rw [h])
    simp only [he]
    exact ⟨e, rfl⟩

/-- **C112** `draw` shows every node once, with the colour, shape and text of the functions that are given, if these return; the
text is put beside the node, on the side towards the horizontal axis. -/
theorem C112_draw {g : Graph} {color : Node → Py Paint} {shape label : Node → Py String} {c : Node → Paint} {s t : Node → String}
    (hcol : ∀ v ∈ g.nodes, color v = .ok (c v)) (hsh : ∀ v ∈ g.nodes, shape v = .ok (s v))
    (hlab : ∀ v ∈ g.nodes, label v = .ok (t v)) (layout : Node → Rat × Rat) :
    ∃ items, Draw.draw color shape label layout g = .ok items ∧ items.map (·.node) = g.nodes ∧
      ∀ i ∈ items, i.color = c i.node ∧ i.shape = s i.node ∧ i.text = t i.node ∧ i.at_ = layout i.node ∧
        i.textAt.1 = i.at_.1 - 1 / 10 ∧ (0 < i.at_.2 → i.textAt.2 = i.at_.2 - 1 / 5) ∧ (i.at_.2 ≤ 0 → i.textAt.2 = i.at_.2 + 1 / 5) := by
  have h1 : mapPy label g.nodes = .ok (g.nodes.map t) := mapPy_map hlab
  have h2 : mapPy (Draw.paint color shape) g.nodes = .ok (g.nodes.map (fun v => (c v, s v))) :=
    mapPy_map (fun v hv => by unfold Draw.paint; rw [hcol v hv, hsh v hv])
  have h3 : g.nodes.zip ((g.nodes.map t).zip (g.nodes.map (fun v => (c v, s v)))) = g.nodes.map (fun v => (v, t v, c v, s v)) := by
    rw [List.zip_map']
    conv => lhs; lhs; rw [← List.map_id g.nodes]
    rw [List.zip_map']
    rfl
  refine ⟨g.nodes.map (fun v => ⟨v, layout v, t v, Draw.textPos (layout v), c v, s v⟩), ?_, ?_, ?_⟩
  · unfold Draw.draw
    simp only [h1, h2, h3, List.map_map]
    rfl
  · rw [List.map_map]
    exact List.map_id _
  · intro i hi
    obtain ⟨v, _, rfl⟩ := List.mem_map.1 hi
    refine ⟨rfl, rfl, rfl, rfl, ?_⟩
    simp only [Draw.textPos]
    by_cases h : 0 < (layout v).2
    · rw [if_pos h]
      exact ⟨rfl, fun _ => by norm_num, fun q => absurd h (not_lt.2 q)⟩
    · rw [if_neg h]
      exact ⟨rfl, fun q => absurd q h, fun _ => by norm_num⟩

/-- **C112** `draw_property` shows exactly the nodes with the property in the given colour and the others as `draw` does, if no
node has that colour otherwise. -/
theorem C112_draw_property {prop : Node → Py Bool} {p : Node → Bool} {color : Node → Py Paint} {c : Paint} {v : Node}
    (hp : prop v = .ok (p v)) (hc : color v ≠ .ok c) :
    (Draw.highlight prop c color v = .ok c ↔ p v = true) ∧ (p v = false → Draw.highlight prop c color v = color v) := by
  unfold Draw.highlight
  rw [hp]
  cases p v with
  | true => simp
  | false => simpa using hc

/-- **C112** The texts are the labels of the CPDs; plain tables and nodes without CPD have none.  This never raises. -/
theorem C112_label (text : Node → String) (net : Net) (v : Node) :
    (∀ c, net.cpds.get? v = some c → c.kind ≠ .tabular → Draw.label text net v = .ok (text v)) ∧
    ((net.cpds.get? v = none ∨ ∃ c, net.cpds.get? v = some c ∧ c.kind = .tabular) → Draw.label text net v = .ok "") := by
  refine ⟨fun c h1 h2 => ?_, ?_⟩
  · unfold Draw.label; rw [h1]; simp only [if_neg h2]
  · rintro (h | ⟨c, h, h2⟩) <;> unfold Draw.label <;> rw [h]
    simp only [if_pos h2]

/-- **C112** A plain Bayesian network is always drawn, with every node as a light gray circle; `draw_property` with another colour shows
exactly the nodes with the property. -/
theorem C112_cbn (text : Node → String) (net : Net) (layout : Node → Rat × Rat) {prop : Node → Bool} {c : String} (hc : c ≠ "lightgray") :
    (∃ items, Draw.draw Draw.colorCbn Draw.shapeCbn (Draw.label text net) layout net.g = .ok items ∧ items.map (·.node) = net.g.nodes ∧
      ∀ i ∈ items, i.color = .name "lightgray" ∧ i.shape = "o" ∧ i.at_ = layout i.node) ∧
    ∃ items, Draw.draw (Draw.highlight (fun v => .ok (prop v)) (.name c) Draw.colorCbn) Draw.shapeCbn (Draw.label text net) layout net.g = .ok items ∧
      items.map (·.node) = net.g.nodes ∧ ∀ i ∈ items, (i.color = .name c ↔ prop i.node = true) ∧ i.shape = "o" ∧ i.at_ = layout i.node := by
  have hl : ∀ v ∈ net.g.nodes, Draw.label text net v = .ok (match net.cpds.get? v with
      | some c => if c.kind = .tabular then "" else text v
      | none => "") := fun v _ => by
    unfold Draw.label
    cases net.cpds.get? v <;> rfl
  constructor
  · obtain ⟨items, h1, h2, h3⟩ := C112_draw (g := net.g) (color := Draw.colorCbn) (shape := Draw.shapeCbn) (c := fun _ => .name "lightgray")
      (s := fun _ => "o") (fun _ _ => rfl) (fun _ _ => rfl) hl layout
    exact ⟨items, h1, h2, fun i hi => ⟨(h3 i hi).1, (h3 i hi).2.1, (h3 i hi).2.2.2.1⟩⟩
  · obtain ⟨items, h1, h2, h3⟩ := C112_draw (g := net.g) (color := Draw.highlight (fun v => .ok (prop v)) (.name c) Draw.colorCbn) (shape := Draw.shapeCbn)
      (c := fun v => if prop v then .name c else .name "lightgray") (s := fun _ => "o")
      (fun v _ => by unfold Draw.highlight Draw.colorCbn; beta_reduce; cases prop v <;> rfl) (fun _ _ => rfl) hl layout
    refine ⟨items, h1, h2, fun i hi => ⟨?_, (h3 i hi).2.1, (h3 i hi).2.2.2.1⟩⟩
    rw [(h3 i hi).1]
    cases prop i.node with
    | true => simp
    | false => simpa using fun h => hc h.symm

/-- **C112** `draw_sccs` gives every decision a colour, and two decisions have the same place on the colour scale exactly if each
can be reached from the other in the relevance graph. -/
theorem C112_draw_sccs {rg : Graph} {sccs : List (List Node)} (hs : IsSccs rg.nodes rg.Edge sccs) :
    (Draw.drawSccs rg sccs).map (·.1) = rg.nodes ∧
    ∀ u x v y, (u, x) ∈ Draw.drawSccs rg sccs → (v, y) ∈ Draw.drawSccs rg sccs →
      (x = y ↔ Relation.ReflTransGen rg.Edge u v ∧ Relation.ReflTransGen rg.Edge v u) := by
  refine ⟨by unfold Draw.drawSccs; rw [List.map_map]; exact List.map_id _, ?_⟩
  have hidx : ∀ v ∈ rg.nodes, ∃ i, sccs.findIdx? (fun c => decide (v ∈ c)) = some i ∧ ∃ h : i < sccs.length, v ∈ sccs[i] := by
    intro v hv
    obtain ⟨c, hc, hvc⟩ := List.mem_flatten.1 (hs.perm.mem_iff.2 hv)
    cases h : sccs.findIdx? (fun c => decide (v ∈ c)) with
    | none =>
      rw [List.findIdx?_eq_none_iff] at h
      have := h c hc
      simp [hvc] at this
    | some i =>
      obtain ⟨h1, h2, _⟩ := List.findIdx?_eq_some_iff_getElem.1 h
      exact ⟨i, rfl, h1, by simpa using h2⟩
  intro u x v y hu hv
  obtain ⟨u', hu', e1⟩ := List.mem_map.1 hu
  obtain ⟨v', hv', e2⟩ := List.mem_map.1 hv
  obtain ⟨rfl, rfl⟩ := Prod.mk.inj e1
  obtain ⟨rfl, rfl⟩ := Prod.mk.inj e2
  obtain ⟨i, hi, hil, hui⟩ := hidx u' hu'
  obtain ⟨j, hj, hjl, hvj⟩ := hidx v' hv'
  unfold Draw.sccColor
  rw [hi, hj, Paint.scale.injEq, Option.getD_some, Option.getD_some, linspace_inj hil hjl]
  constructor
  · rintro rfl
    exact (hs.classes _ (List.getElem_mem hil) u' hui v' hv').1 hvj
  · intro h
    have h2 : v' ∈ sccs[i] := (hs.classes _ (List.getElem_mem hil) u' hui v' hv').2 h
    have h3 : u' ∈ sccs[j] := (hs.classes _ (List.getElem_mem hjl) v' hvj u' hu').2 ⟨h.2, h.1⟩
    have hle1 : i ≤ j := by
      obtain ⟨_, _, h5⟩ := List.findIdx?_eq_some_iff_getElem.1 hi
      by_contra hlt
      have := h5 j (by omega)
      simp [h3] at this
    have hle2 : j ≤ i := by
      obtain ⟨_, _, h5⟩ := List.findIdx?_eq_some_iff_getElem.1 hj
      by_contra hlt
      have := h5 i (by omega)
      simp [h2] at this
    omega

/-! ### Examples -/

/-- two players; the second has no utility in `exDrawn false` -/
def exDrawn (full : Bool) : Macid :=
  match Macid.init [("X", "D1"), ("D1", "U1"), ("D2", "U1"), ("D2", "U2")] [(0, ["D1"]), (1, ["D2"])]
    (if full then [(0, ["U1"]), (1, ["U2"])] else [(0, ["U1", "U2"])]) with
  | .ok m => m
  | .error _ => Macid.new

/-- **C112** The hypotheses are met in a game of two players with a chance node.  With `draw_property` the node `X` is red.  If
the second player has no utility, the game cannot be drawn.  In the relevance graph, `A` and `B` form a component. -/
theorem C112_example :
    (∀ d a, (exDrawn true).role d = .decision a → a ∈ (exDrawn true).agents) ∧
    (["X", "D1", "U1", "D2", "U2"].map (Draw.color (exDrawn true)) =
      [.ok (.name "lightgray"), .ok (.scale 0), .ok (.scale 0), .ok (.scale 1), .ok (.scale 1)]) ∧
    (Draw.draw (Draw.highlight (fun v => .ok (decide (v = "X"))) (.name "red") (Draw.color (exDrawn true))) (Draw.shape (exDrawn true))
      (fun v => .ok v) (fun _ => (0, 1)) (exDrawn true).g).toOption.map (fun l => l.map (fun i => (i.node, i.color, i.shape))) =
      some [("X", .name "red", "o"), ("D1", .scale 0, "s"), ("U1", .scale 0, "D"), ("D2", .scale 1, "s"), ("U2", .scale 1, "D")] ∧
    ((exDrawn false).role "D2" = .decision 1 ∧ 1 ∉ (exDrawn false).agents ∧ "D2" ∈ (exDrawn false).g.nodes) ∧
    Draw.drawSccs ⟨["A", "B", "C"], [("A", "B"), ("B", "A"), ("C", "A")]⟩ [["A", "B"], ["C"]] =
      [("A", .scale 0), ("B", .scale 0), ("C", .scale 1)] := by
  refine ⟨fun d a h => ?_, by decide +kernel, by decide +kernel, by decide +kernel, by decide +kernel⟩
  have h1 := role_decision.1 h
  have h2 : (exDrawn true).decisionAgent = [("D1", 0), ("D2", 1)] := by decide +kernel
  have h3 : (exDrawn true).agents = [0, 1] := by decide +kernel
  rw [h2] at h1
  rw [h3]
  have := Dict.mem_of_get? h1
  simp at this
  rcases this with ⟨_, rfl⟩ | ⟨_, rfl⟩ <;> simp

end Verif
