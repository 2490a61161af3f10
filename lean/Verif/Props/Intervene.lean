import Verif.Lemmas.Intervene
import Verif.Props.Copy

/-!
# C36: interventions
-/

namespace Verif
open Net

namespace Net

theorem Cut.inDom {net net' : Net} {ints : List (Node × Outcome)} (h : Cut net ints net') (a : Assign) :
    net'.InDom a ↔ net.InDom a := by
  unfold InDom
  rw [h.nodes]
  exact forall₂_congr (fun w hw => (h.domain w hw).mem_iff)

theorem intervene_spec {ints : List (Node × Outcome)} : ∀ {net : Net}, Good net → (ints.map (·.1)).Nodup →
    (∀ p ∈ ints, p.1 ∈ net.g.nodes ∧ p.2 ∈ net.dom p.1 ∧ net.Tame p.1) →
    ∃ net', net.intervene ints = (net', .ok ()) ∧ Good net' ∧ Cut net ints net' ∧
      net'.m = { net.m with g := net'.g } ∧ net'.base = net.base := by
  induction ints with
  | nil =>
    intro net hG _ _
    exact ⟨net, rfl, hG, ⟨rfl, by simp, fun _ _ => .refl _, fun _ _ => rfl, fun _ => rfl, fun _ _ _ => rfl,
      fun _ _ _ _ _ => rfl, by simp⟩, rfl, rfl⟩
  | cons p ints ih =>
    intro net hG hn hp
    obtain ⟨x, v⟩ := p
    simp only [List.map_cons, List.nodup_cons] at hn
    obtain ⟨h1, h2, h3⟩ := hp (x, v) (by simp)
    obtain ⟨n1, k1, k2, k3, k4, k5, k6, k7, k8, k9⟩ := interveneOne_spec hG h1 h2 h3
    have hrest : ∀ p ∈ ints, p.1 ∈ n1.g.nodes ∧ p.2 ∈ n1.dom p.1 ∧ n1.Tame p.1 := by
      intro p hpm
      obtain ⟨q1, q2, q3⟩ := hp p (by simp [hpm])
      have hne : p.1 ≠ x := fun e => hn.1 (e ▸ List.mem_map_of_mem hpm)
      refine ⟨by rw [k3.nodes]; exact q1, by rw [k6 _ hne]; exact q2, ?_⟩
      rcases q3 with h | h
      · left; rw [k6 _ hne]; exact h
      · right
        intro y c hed
        by_cases e : y = x
        · subst e; exact k9 c
        · rw [k8 y e]; exact h y c ((k3.edges _ _).1 hed).1
    obtain ⟨n2, j1, j2, j3, j4, j5⟩ := ih k2 hn.2 hrest
    refine ⟨n2, ?_, j2, ⟨by rw [j3.nodes, k3.nodes], ?_, ?_, ?_, ?_, ?_, ?_, ?_⟩, ?_, by rw [j5, k5]⟩
    · simp only [intervene, k1]; exact j1
    · intro u w
      rw [j3.edges, k3.edges]
      simp only [List.map_cons, List.map_nil, List.mem_cons, List.not_mem_nil, or_false, not_or]
      tauto
    · intro w hw
      exact (j3.domain w (by rw [k3.nodes]; exact hw)).trans (k3.domain w hw)
    · intro w hw
      simp only [List.map_cons, List.mem_cons, not_or] at hw
      rw [j3.domainSame w hw.2, k6 w hw.1]
    · intro n
      rw [j3.roles, k3.roles]
    · intro w hwn hw
      simp only [List.map_cons, List.mem_cons, not_or] at hw
      rw [j3.undecided w (by rw [k3.nodes]; exact hwn) hw.2, k3.undecided w hwn (by simpa using hw.1)]
    · intro w hwn hw a ha
      simp only [List.map_cons, List.mem_cons, not_or] at hw
      rw [j3.others w (by rw [k3.nodes]; exact hwn) hw.2 a ((k3.inDom a).2 ha),
        k3.others w hwn (by simpa using hw.1) a ha]
    · intro y u hyu a ha
      rcases List.mem_cons.1 hyu with h | h
      · cases h
        rw [j3.others x (by rw [k3.nodes]; exact h1) hn.1 a ((k3.inDom a).2 ha), k3.fixed x v (by simp) a ha]
      · exact j3.fixed y u h a ((k3.inDom a).2 ha)
    · rw [j4, k4]

end Net

/-- **C36** Intervening on a sound network with listed outcomes succeeds and leaves a sound network:
each intervened variable loses its parents and takes the given outcome with probability 1, every other
node keeps its parents, its domain and its probabilities.  Holds when the domain of every intervened
variable is in increasing order or none of its children is given as a table. -/
theorem C36_intervene_exact {net : Net} (hG : net.Good) {ints : List (Node × Outcome)}
    (hd : (ints.map (·.1)).Nodup)
    (hi : ∀ p ∈ ints, p.1 ∈ net.g.nodes ∧ p.2 ∈ net.dom p.1 ∧ net.Tame p.1) :
    ∃ net', net.intervene ints = (net', .ok ()) ∧ net'.Good ∧ Cut net ints net' ∧
      net'.m = { net.m with g := net'.g } ∧ net'.base = net.base :=
  intervene_spec hG hd hi

/-- An unknown variable is rejected with KeyError and nothing changes. -/
theorem C36_intervene_unknown (net : Net) {x : Node} (v : Outcome) (hx : x ∉ net.rels.keys)
    (rest : List (Node × Outcome)) : net.intervene ((x, v) :: rest) = (net, .error .key) := by
  simp [intervene, interveneOne, hx]

namespace Ex36

/-- X → Y -/
def g : Graph := ⟨["X", "Y"], [("X", "Y")]⟩

/-- X listed as 1, 0; Y copies X, given as a table -/
def tabY : Cpd := ⟨"Y", [1, 0], ["X"], [2], [[1, 0], [0, 1]], .tabular, fun _ => .error .type, none⟩

def net0 : Net := ⟨⟨g, [], [], [], []⟩, [], [], [], Macid.new⟩

def rels : List (Node × Rel) :=
  [("X", .tab ⟨"X", [1, 0], [], [], [[1 / 2, 1 / 2]], .tabular, fun _ => .error .type, none⟩), ("Y", .tab tabY)]

def net : Net := (net0.addCpds rels).1

theorem net_eq : net0.addCpds rels = (net, .ok ()) := by
  have : (net0.addCpds rels).2 = .ok () := by decide +kernel
  unfold net
  rw [← this]

theorem net_good : net.Good := by
  refine good_of_runs (net := net0) (wf_of_ofEdges (es := [("X", "Y")]) (by decide +kernel)) ⟨rfl, rfl, rfl⟩ ?_
    (addCpds_runs net_eq) (by decide +kernel) ?_
  · intro op ho
    obtain ⟨p, hp, rfl⟩ := List.mem_map.1 ho
    simp only [rels, List.mem_cons, List.not_mem_nil, or_false] at hp
    rcases hp with rfl | rfl
    · exact ⟨by decide +kernel, by simp, by simp, by simp, by simp⟩
    · exact ⟨by decide +kernel, by simp [tabY], by simp [tabY], by simp [tabY], by simp [tabY]⟩
  · intro v c h
    rw [addCpds_rels (by decide +kernel) net_eq v] at h
    cases hg : Dict.get? rels v with
    | none => rw [hg] at h; simp [net0, Dict.get?] at h
    | some r =>
      rw [hg] at h
      simp only [Option.some.injEq] at h
      subst h
      have := Dict.mem_of_get? hg
      simp only [rels, List.mem_cons, Prod.mk.injEq, Rel.tab.injEq, List.not_mem_nil, or_false] at this
      have hgm : net.g = g := by decide +kernel
      have hdd : net.domain = [("X", [1, 0]), ("Y", [1, 0])] := by decide +kernel
      rw [hgm, hdd]
      rcases this with ⟨rfl, rfl⟩ | ⟨rfl, rfl⟩
      · exact ⟨rfl, rfl, by simp [Graph.Edge, g], rfl, by decide +kernel⟩
      · exact ⟨rfl, rfl, by simp [Graph.Edge, g, tabY], by simp [tabY, Dict.get?], by decide +kernel⟩

end Ex36

/-- FALSE without the side condition: a sound network in which the outcomes of `X` are listed as 1, 0
and its child `Y`, given as a table, copies `X`.  After do(X = 1) the rows of the table are attributed
to the wrong outcomes: Y differs from X with probability 1. -/
theorem C36_counterexample : ∃ (net net' : Net), net.Good ∧ "X" ∈ net.g.nodes ∧ (1 : Outcome) ∈ net.dom "X" ∧
    net.intervene [("X", 1)] = (net', .ok ()) ∧
    ∃ a : Assign, net.InDom a ∧ a "X" = 1 ∧ a "Y" = 1 ∧ net.kernel "Y" a = 1 ∧ net'.kernel "Y" a = 0 := by
  refine ⟨Ex36.net, (Ex36.net.intervene [("X", 1)]).1, Ex36.net_good, by decide +kernel, by decide +kernel, ?_,
    fun _ => 1, by unfold InDom; decide +kernel, rfl, rfl, by decide +kernel, by decide +kernel⟩
  have : (Ex36.net.intervene [("X", 1)]).2 = .ok () := by decide +kernel
  rw [← this]

/-- the hypotheses of `C36_intervene_exact` are met by the example diagram -/
example : Ex.net.Good ∧ (([("A", 1), ("D", 0)] : List (Node × Outcome)).map (·.1)).Nodup ∧
    ∀ p ∈ ([("A", 1), ("D", 0)] : List (Node × Outcome)), p.1 ∈ Ex.net.g.nodes ∧ p.2 ∈ Ex.net.dom p.1 ∧
      (Ex.net.dom p.1).Pairwise (· ≤ ·) := by
  refine ⟨Ex.net_good, by decide, ?_⟩
  decide +kernel

end Verif
