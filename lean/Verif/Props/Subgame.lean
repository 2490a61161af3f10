import Verif.Lemmas.SubgameRun
import Verif.Props.Witness

/-!
# C63: subgames
-/

namespace Verif
open Relation Graph Macid Net

theorem fillLoop_m {rel : Node → Py Rel} : ∀ {vs : List Node} {sg sg' : Net}, fillLoop rel sg vs = .ok sg' → sg'.m = sg.m
  | [], sg, sg', h => by
    simp only [fillLoop, Except.ok.injEq] at h
    rw [h]
  | v :: vs, sg, sg', h => by
    unfold fillLoop at h
    cases hr : rel v with
    | error e => rw [hr] at h; simp at h
    | ok r =>
      rw [hr] at h
      simp only at h
      have hm := (sg.set_m v r).1
      generalize sg.set v r = p at h hm
      obtain ⟨s1, q⟩ := p
      cases q with
      | error e => simp at h
      | ok _ => exact (fillLoop_m h).trans hm

/-- **C63** (structure) Whatever `create_subgame` returns has the edges into active decisions and relevant nodes and no others, the
ends of these edges as nodes, the active decisions with their owners as decisions and the relevant utilities with their owners
as utilities; relevant nodes and active decisions keep all their parents, and other nodes have none. -/
theorem C63_structure {net : Net} (hU : net.Usable) (hnames : NamesOk net.g) {pick : Pick} {setOrd : List Node → List Node}
    (hset : ∀ l, (setOrd l).Perm l) {active : List Node} (hnd : active.Nodup) (ha : ∀ d ∈ active, d ∈ net.m.decisions) {sg : Net}
    (h : createSubgame pick setOrd net active = .ok sg) :
    net.m.IsSubgame active sg.m ∧
    (∀ v, net.m.InGame active v → ∀ u, sg.g.Edge u v ↔ net.g.Edge u v) ∧ (∀ v, ¬ net.m.InGame active v → ∀ u, ¬ sg.g.Edge u v) := by
  have hplay : ∀ d ∈ active, net.m.Playable d := fun d hd => playable_of hU (ha d hd)
  obtain ⟨rel, r1, r2, r3⟩ := relevantNodes_spec hU.roles hnames pick hplay
  obtain ⟨sk, s1, s2, _⟩ := subgameSkeleton_spec hU.roles hset hnd r2 hplay r3
  have hm : sg.m = sk := by
    unfold createSubgame at h
    rw [r1] at h; simp only at h
    rw [s1] at h; simp only at h
    cases hc : net.copy with
    | error e => rw [hc] at h; simp at h
    | ok copy =>
      rw [hc] at h
      simp only at h
      generalize forNet (mixStep pick active) copy copy.m.decisions = p at h
      obtain ⟨c1, q⟩ := p
      cases q with
      | error e => simp at h
      | ok _ =>
        simp only at h
        split at h
        · simp at h
        · rename_i t ht
          rw [fillLoop_m h, fillLoop_m ht]
  have hE : ∀ u v, sg.g.Edge u v ↔ net.g.Edge u v ∧ net.m.InGame active v := by
    intro u v
    show sg.m.g.Edge u v ↔ _
    rw [hm]
    exact s2.edges u v
  refine ⟨by rw [hm]; exact s2, fun v hv u => ?_, fun v hv u he => hv ((hE u v).1 he).2⟩
  rw [hE]
  exact and_iff_left hv

/-- **C63** (probabilities) `create_subgame` returns if the nodes that are cut off from their parents (the parents of members of the
game that are not members themselves) are not given as plain tables and have their outcomes listed in increasing order.  The
result has the same outcomes and, for members of the game, the same probabilities, except that decisions without rule that do
not matter are played uniformly at random; the probabilities of the nodes cut off are averages over the outcomes of the
parents. -/
theorem C63_returns {net : Net} (hU : net.Usable) (hnames : NamesOk net.g) (pick : Pick) {setOrd : List Node → List Node}
    (hset : ∀ l, (setOrd l).Perm l) {active : List Node} (hnd : active.Nodup) (ha : ∀ d ∈ active, d ∈ net.m.decisions)
    (hm : ∀ v ∈ net.g.nodes, ¬ net.m.InGame active v → (∃ w, net.g.Edge v w ∧ net.m.InGame active w) →
      net.Own v ∧ (net.dom v).Pairwise (· ≤ ·)) :
    ∃ sg, createSubgame pick setOrd net active = .ok sg ∧ net.m.IsSubgame active sg.m ∧ SubgameProbs net active sg ∧
      Good sg ∧ sg.Normalised := by
  obtain ⟨sg, h1, h2, h3, h4, h5, _⟩ := createSubgame_spec hU hnames pick hset hnd ha hm
  exact ⟨sg, h1, h2, h3, h4, h5⟩

/-- **C63** Relevant nodes are always in the subgame; an active decision is if it is an ancestor of a utility of its owner. -/
theorem C63_members {net : Net} (hU : net.Usable) (hnames : NamesOk net.g) {pick : Pick} {setOrd : List Node → List Node}
    (hset : ∀ l, (setOrd l).Perm l) {active : List Node} (hnd : active.Nodup) (ha : ∀ d ∈ active, d ∈ net.m.decisions) {sg : Net}
    (h : createSubgame pick setOrd net active = .ok sg) :
    (∀ v ∈ net.g.nodes, net.m.RelevantTo active v → v ∈ sg.g.nodes) ∧
    (∀ d ∈ active, ∀ a u, net.m.role d = .decision a → net.m.role u = .utility a → net.g.Desc d u → d ∈ sg.g.nodes) := by
  obtain ⟨hs, _⟩ := C63_structure hU hnames hset hnd ha h
  constructor
  · intro v hv hr
    obtain ⟨w, ⟨h1, h2⟩ | h1⟩ := relevant_incident hU.roles hv hr
    · exact (hs.nodes v).2 ⟨w, Or.inl ((hs.edges v w).2 ⟨h1, Or.inr h2⟩)⟩
    · exact (hs.nodes v).2 ⟨w, Or.inr ((hs.edges w v).2 ⟨h1, Or.inr hr⟩)⟩
  · intro d hd a u h1 h2 h3
    obtain ⟨w, q1, q2⟩ := active_incident hU.roles hd h1 h2 h3
    exact (hs.nodes d).2 ⟨w, Or.inl ((hs.edges d w).2 ⟨q1, Or.inr q2⟩)⟩

/-- **C63** The subgame is a consistent diagram (decisions and utilities are nodes) if every active decision is an ancestor of a
utility of its owner. -/
theorem C63_consistent {net : Net} (hU : net.Usable) (hnames : NamesOk net.g) (pick : Pick) {setOrd : List Node → List Node}
    (hset : ∀ l, (setOrd l).Perm l) {active : List Node} (hnd : active.Nodup) (ha : ∀ d ∈ active, d ∈ net.m.decisions)
    (hm : ∀ v ∈ net.g.nodes, ¬ net.m.InGame active v → (∃ w, net.g.Edge v w ∧ net.m.InGame active w) →
      net.Own v ∧ (net.dom v).Pairwise (· ≤ ·))
    (hu : ∀ d ∈ active, ∃ a u, net.m.role d = .decision a ∧ net.m.role u = .utility a ∧ net.g.Desc d u) :
    ∃ sg, createSubgame pick setOrd net active = .ok sg ∧ sg.m.Consistent := by
  obtain ⟨sg, h1, h2, h3, h4, h5, _, _, _, h6, _⟩ := createSubgame_spec hU hnames pick hset hnd ha hm
  refine ⟨sg, h1, h6 (fun d hd => ?_)⟩
  obtain ⟨a, u, q1, q2, q3⟩ := hu d hd
  exact (C63_members hU hnames hset hnd ha h1).2 d hd a u q1 q2 q3

namespace ExS

/-- `A` is observed through `X` by the second player, who also sees the move of the first -/
def edges : List (Node × Node) :=
  [("A", "X"), ("X", "D2"), ("D1", "D2"), ("D1", "U1"), ("D2", "U1"), ("D1", "U2"), ("D2", "U2")]

def m : Macid := ⟨⟨["A", "X", "D2", "D1", "U1", "U2"], edges⟩,
  [(0, ["D1"]), (1, ["D2"])], [(0, ["U1"]), (1, ["U2"])], [("D1", 0), ("D2", 1)], [("U1", 0), ("U2", 1)]⟩

def x : Func := fun pv => .ok (.val ((pv "A").getD 0))
def u1 : Func := fun pv => .ok (.val (if pv "D1" = pv "D2" then 1 else 0))
def u2 : Func := fun pv => .ok (.val (2 * (pv "D1").getD 0 + (pv "D2").getD 0))

/-- `dom` is the list of moves of the first player -/
def rels (dom : List Outcome) : List (Node × Rel) :=
  [("A", .dist [(0, some (3 / 4)), (1, some (1 / 4))]), ("X", .func x), ("D1", .seq dom), ("D2", .seq [0, 1]),
    ("U1", .func u1), ("U2", .func u2)]

def net (dom : List Outcome) : Net := ((Net.mk m [] [] [] Macid.new).addCpds (rels dom)).1

theorem honest (dom : List Outcome) : ∀ p ∈ rels dom, Honest p.2 := by
  intro p hp
  simp only [rels, List.mem_cons, List.not_mem_nil, or_false] at hp
  rcases hp with rfl | rfl | rfl | rfl | rfl | rfl
  · trivial
  · intro pv; simp [x]
  · trivial
  · trivial
  · intro pv; simp [u1]
  · intro pv; simp [u2]

theorem usable : (net [0, 1]).Usable ∧ (net [0, 1]).m = m :=
  usable_of_build (edges := edges) (ad := [(0, ["D1"]), (1, ["D2"])]) (au := [(0, ["U1"]), (1, ["U2"])]) (rels := rels [0, 1])
    (by decide +kernel) (by rw [← show ((Net.mk m [] [] [] Macid.new).addCpds (rels [0, 1])).2 = .ok () by decide +kernel]; rfl)
    (honest _) (by decide +kernel)

theorem usable' : (net [1, 0]).Usable ∧ (net [1, 0]).m = m :=
  usable_of_build (edges := edges) (ad := [(0, ["D1"]), (1, ["D2"])]) (au := [(0, ["U1"]), (1, ["U2"])]) (rels := rels [1, 0])
    (by decide +kernel) (by rw [← show ((Net.mk m [] [] [] Macid.new).addCpds (rels [1, 0])).2 = .ok () by decide +kernel]; rfl)
    (honest _) (by decide +kernel)

theorem names (dom : List Outcome) (h : (net dom).m = m) : NamesOk (net dom).g := by
  show NamesOk (net dom).m.g
  rw [h]
  exact ⟨by decide +kernel, by decide +kernel⟩

theorem own_of {net : Net} {v : Node} (h : (net.cpds.get? v).all (fun c => decide (c.kind ≠ .tabular)) = true) : net.Own v := by
  intro c hc
  rw [hc] at h
  simpa using h

/-- an assignment of the subgame -/
def a (d1 d2 u2 : Outcome) : Assign := fun v => if v = "D1" then d1 else if v = "D2" then d2 else if v = "U2" then u2 else 0

/-- the subgame -/
def sub (dom : List Outcome) (f : Net → Rat) : Option Rat :=
  match createSubgame (fun _ => 0) id (net dom) ["D2"] with
  | .ok sg => some (f sg)
  | .error _ => none

end ExS

/-- The hypotheses of `C63_returns`, `C63_members` and `C63_consistent` are met by a game in which the second player sees the move of
the first and a noisy signal. -/
theorem C63_example : (ExS.net [0, 1]).Usable ∧ NamesOk (ExS.net [0, 1]).g ∧ (∀ d ∈ ["D2"], d ∈ (ExS.net [0, 1]).m.decisions) ∧
    (∀ v ∈ (ExS.net [0, 1]).g.nodes, (ExS.net [0, 1]).Own v ∧ ((ExS.net [0, 1]).dom v).Pairwise (· ≤ ·)) ∧
    ∃ a u, (ExS.net [0, 1]).m.role "D2" = .decision a ∧ (ExS.net [0, 1]).m.role u = .utility a ∧ (ExS.net [0, 1]).g.Desc "D2" u := by
  refine ⟨ExS.usable.1, ExS.names _ ExS.usable.2, by decide +kernel, ?_, 1, "U2", by decide +kernel, by decide +kernel, TransGen.single (by
    show ("D2", "U2") ∈ _
    decide +kernel)⟩
  have h : ∀ v ∈ (ExS.net [0, 1]).g.nodes, (((ExS.net [0, 1]).cpds.get? v).all (fun c => decide (c.kind ≠ .tabular))) = true ∧
    ((ExS.net [0, 1]).dom v).Pairwise (· ≤ ·) := by decide +kernel
  exact fun v hv => ⟨ExS.own_of (h v hv).1, (h v hv).2⟩

/-- **C63** The nodes cut off do not keep their distribution: the signal `X` is 1 with probability 1/4 in the game and with probability
1/2 in the subgame. -/
theorem C63_not_marginal : (ExS.net [0, 1]).P (fun a => decide (a "X" = 1)) = 1 / 4 ∧
    ExS.sub [0, 1] (fun sg => sg.P (fun a => decide (a "X" = 1))) = some (1 / 2) := by
  decide +kernel

/-- **C63** If the moves of the first player are listed in another order, `create_subgame` sorts them but leaves the tables of the
children as they were, so the second player's utility is computed from the wrong move: with moves 0 and 0 it is 0 in the game
and 2 in the subgame. -/
theorem C63_misaligned : (ExS.net [1, 0]).Usable ∧ NamesOk (ExS.net [1, 0]).g ∧ (ExS.net [1, 0]).m.RelevantTo ["D2"] "U2" ∧
    (ExS.net [1, 0]).kernel "U2" (ExS.a 0 0 0) = 1 ∧ ExS.sub [1, 0] (fun sg => sg.kernel "U2" (ExS.a 0 0 0)) = some 0 ∧
    ExS.sub [1, 0] (fun sg => sg.kernel "U2" (ExS.a 0 0 2)) = some 1 := by
  refine ⟨ExS.usable'.1, ExS.names _ ExS.usable'.2, ?_, by decide +kernel, by decide +kernel, by decide +kernel⟩
  have hc := ExS.usable'.1.roles
  refine (relevantNodes_spec hc (ExS.names _ ExS.usable'.2) (fun _ => 0) (active := ["D2"]) (by
    intro d hd
    simp only [List.mem_singleton] at hd
    subst hd
    exact ⟨1, by decide +kernel, by decide +kernel⟩)).elim (fun r hr => ((hr.2.2 "U2").1 ?_).2)
  have : relevantNodes (fun _ => 0) (ExS.net [1, 0]).m ["D2"] = .ok ["U2"] := by decide +kernel
  rw [this] at hr
  rw [← Except.ok.inj hr.1]
  simp

namespace ExLost

/-- the decision `D` influences nothing its owner cares about -/
def m : Macid := ⟨⟨["D", "Y", "E", "U"], [("D", "Y"), ("E", "U")]⟩, [(0, ["D", "E"])], [(0, ["U"])], [("D", 0), ("E", 0)], [("U", 0)]⟩

def rels : List (Node × Rel) := [("D", .seq [0, 1]), ("E", .seq [0, 1]), ("Y", .func (fun pv => .ok (.val ((pv "D").getD 0)))),
  ("U", .func (fun pv => .ok (.val ((pv "E").getD 0))))]

def net : Net := ((Net.mk m [] [] [] Macid.new).addCpds rels).1

theorem usable : net.Usable ∧ net.m = m :=
  usable_of_build (edges := [("D", "Y"), ("E", "U")]) (ad := [(0, ["D", "E"])]) (au := [(0, ["U"])]) (rels := rels)
    (by decide +kernel) (by rw [← show ((Net.mk m [] [] [] Macid.new).addCpds rels).2 = .ok () by decide +kernel]; rfl)
    (by
      intro p hp
      simp only [rels, List.mem_cons, List.not_mem_nil, or_false] at hp
      rcases hp with rfl | rfl | rfl | rfl
      · trivial
      · trivial
      · intro pv; simp
      · intro pv; simp)
    (by decide +kernel)

end ExLost

/-- **C63** An active decision without influence on a utility of its owner can be missing from the graph of its own subgame, although it
is listed as a decision. -/
theorem C63_lost_decision : ExLost.net.Usable ∧ "D" ∈ ExLost.net.m.decisions ∧
    ∃ sg, createSubgame (fun _ => 0) id ExLost.net ["D"] = .ok sg ∧ "D" ∈ sg.m.decisions ∧ "D" ∉ sg.g.nodes := by
  have hn : NamesOk ExLost.net.g := by
    show NamesOk ExLost.net.m.g
    rw [ExLost.usable.2]
    exact ⟨by decide +kernel, by decide +kernel⟩
  have hd : ∀ d ∈ ["D"], d ∈ ExLost.net.m.decisions := by decide +kernel
  obtain ⟨sg, h1, _⟩ := C63_returns ExLost.usable.1 hn (fun _ => 0) (setOrd := id) (fun l => List.Perm.refl l) (active := ["D"]) (by simp) hd (by
    have h : ∀ v ∈ ExLost.net.g.nodes, ((ExLost.net.cpds.get? v).all (fun c => decide (c.kind ≠ .tabular))) = true ∧
      (ExLost.net.dom v).Pairwise (· ≤ ·) := by decide +kernel
    exact fun v hv _ _ => ⟨ExS.own_of (h v hv).1, (h v hv).2⟩)
  refine ⟨ExLost.usable.1, hd "D" (by simp), sg, h1, ?_⟩
  have : (match createSubgame (fun _ => 0) id ExLost.net ["D"] with
    | .ok s => decide ("D" ∈ s.m.decisions ∧ "D" ∉ s.g.nodes)
    | .error _ => false) = true := by decide +kernel
  rw [h1] at this
  simpa using this

/-- **C63** A node that is cut off must not be given as a plain table: such an object has no attribute `domain`. -/
theorem C63_plain_table : raises (createSubgame (fun _ => 0) id ((ExS.net [0, 1]).set "X"
    (.tab ⟨"X", [0, 1], ["A"], [2], [[1, 0], [0, 1]], .tabular, fun _ => .error .type, none⟩)).1 ["D2"]) .attribute = true := by
  decide +kernel

/-- **C63** The game has to be parameterised: if a relevant utility has no relationship, `create_subgame` raises ValueError; if a
node that is cut off has none, AttributeError. -/
theorem C63_unspecified : raises (createSubgame (fun _ => 0) id ((ExS.net [0, 1]).del "U2").1 ["D2"]) .value = true ∧
    raises (createSubgame (fun _ => 0) id ((ExS.net [0, 1]).del "X").1 ["D2"]) .attribute = true := by
  decide +kernel

end Verif
