import Verif.Lemmas.NetExamples

/-!
# C31–C34: the model dictionary
-/

namespace Verif
open Relation

namespace Net

theorem Inv.ofFresh {net : Net} (h : net.Fresh) : Inv net [] := by
  obtain ⟨h1, h2, h3⟩ := h
  refine ⟨?_, ?_, ?_⟩ <;> intro v <;> simp [h1, h3, Dict.get?]

theorem Tight.ofFresh {net : Net} (h : net.Fresh) : Tight net := by
  obtain ⟨h1, h2, h3⟩ := h
  refine ⟨?_, ?_⟩ <;> intro v <;> simp [h2, Dict.get?]

theorem Inv.reflects {net : Net} (h : Inv net []) : net.Reflects := by
  intro v c hc
  obtain ⟨h1, r, h2, h3⟩ := h.cpd v c hc
  exact ⟨h1, r, h2, h3 (by simp)⟩

theorem run_inv {net net' : Net} {op : Op} (hw : net.g.WF) (hi : Inv net []) (hh : RelsHonest net)
    (ho : op.Honest) (h : net.run op = (net', .ok ())) :
    net'.g = net.g ∧ Inv net' [] ∧ RelsHonest net' := by
  cases op with
  | set v r =>
    obtain ⟨h1, h2, h3, _⟩ := setItem_inv hw _ net net' v r [] rfl (hi.mono (by simp)) hh ho h
    exact ⟨h1, h2, h3⟩
  | del v =>
    simp only [run, del] at h
    split at h
    · simp only [Prod.mk.injEq, and_true] at h
      subst h
      have hr : ∀ w, (net.delKey v).rels.get? w = if w = v then none else net.rels.get? w :=
        fun w => Dict.get?_erase _ _ _
      have hc : ∀ w, (net.delKey v).cpds.get? w = if w = v then none else net.cpds.get? w :=
        fun w => Dict.get?_erase _ _ _
      refine ⟨rfl, ⟨fun w c hw' => ?_, fun w r hw' _ hrd => ?_, fun w c hw' => ?_⟩, fun w r hw' => ?_⟩
      · rw [hc] at hw'
        split at hw'
        · simp at hw'
        · rename_i hwv
          obtain ⟨k1, r, k2, k3⟩ := hi.cpd w c hw'
          exact ⟨k1, r, by rw [hr]; simp [hwv, k2], k3⟩
      · rw [hr] at hw'
        split at hw'
        · simp at hw'
        · rename_i hwv
          rw [hc]
          simp only [hwv, if_false]
          exact hi.sat w r hw' (by simp) hrd
      · rw [hc] at hw'
        split at hw'
        · simp at hw'
        · exact hi.scope w c hw'
      · rw [hr] at hw'
        split at hw'
        · simp at hw'
        · exact hh w r hw'
    · simp at h

theorem runs_inv {net net' : Net} {ops : List Op} (h : Runs net ops net') :
    net.g.WF → Inv net [] → RelsHonest net → (∀ op ∈ ops, op.Honest) →
    net'.g = net.g ∧ Inv net' [] ∧ RelsHonest net' := by
  induction h with
  | nil net => exact fun _ hi hh _ => ⟨rfl, hi, hh⟩
  | cons h1 _ ih =>
    intro hw hi hh ho
    obtain ⟨a, b, c⟩ := run_inv hw hi hh (ho _ (by simp)) h1
    obtain ⟨a', b', c'⟩ := ih (a ▸ hw) b c (fun op hop => ho op (by simp [hop]))
    exact ⟨a'.trans a, b', c'⟩

theorem Fresh.honest {net : Net} (h : net.Fresh) : RelsHonest net := by
  intro v r hv
  rw [h.1] at hv
  simp [Dict.get?] at hv

theorem Inv.complete {net : Net} (hw : net.g.WF) (hi : Inv net [])
    (hk : ∀ v ∈ net.g.nodes, v ∈ net.rels.keys) : net.Complete := by
  have : ∀ v, v ∈ net.g.nodes → ∃ c, net.cpds.get? v = some c := by
    intro v
    refine dag_induction hw (P := fun v => v ∈ net.g.nodes → ∃ c, net.cpds.get? v = some c) ?_ v
    intro v ih hv
    obtain ⟨r, hr⟩ := Dict.mem_keys.1 (hk v hv)
    refine hi.sat v r hr (by simp) (Or.inr (fun p hp => ?_))
    obtain ⟨pc, hpc⟩ := ih p hp (hw.edgeNodes p v hp).1
    exact ⟨pc.domain, (hi.cpd p pc hpc).1⟩
  intro v hv
  obtain ⟨c, hc⟩ := this v hv
  exact ⟨c, hc, (hi.cpd v c hc).1⟩

theorem addCpds_runs {net net' : Net} {l : List (Node × Rel)} (h : net.addCpds l = (net', .ok ())) :
    Runs net (l.map (fun p => Op.set p.1 p.2)) net' := by
  induction l generalizing net with
  | nil =>
    simp only [addCpds, Prod.mk.injEq, and_true] at h
    subst h
    exact .nil _
  | cons p l ih =>
    obtain ⟨v, r⟩ := p
    unfold addCpds at h
    generalize hs : net.set v r = x at h
    obtain ⟨net1, y⟩ := x
    cases y with
    | error e => simp at h
    | ok u => exact .cons hs (ih h)

theorem addCpds_rels {net net' : Net} {l : List (Node × Rel)} (hnd : (l.map (·.1)).Nodup)
    (h : net.addCpds l = (net', .ok ())) (w : Node) :
    net'.rels.get? w = match Dict.get? l w with
      | some r => some r
      | none => net.rels.get? w := by
  induction l generalizing net with
  | nil =>
    simp only [addCpds, Prod.mk.injEq, and_true] at h
    subst h
    rfl
  | cons p l ih =>
    obtain ⟨v, r⟩ := p
    unfold addCpds at h
    have hsr := net.set_rels v r w
    generalize hs : net.set v r = x at h hsr
    obtain ⟨net1, y⟩ := x
    simp only [List.map_cons, List.nodup_cons] at hnd
    cases y with
    | error e => simp at h
    | ok u =>
      rw [ih hnd.2 h]
      simp only [] at hsr
      by_cases hvw : v = w
      · subst hvw
        have : Dict.get? l v = none := by
          by_contra hcon
          obtain ⟨r', hr'⟩ := Option.ne_none_iff_exists'.1 hcon
          exact hnd.1 (List.mem_map.2 ⟨_, Dict.mem_of_get? hr', rfl⟩)
        simp [Dict.get?, this, hsr]
      · have hwv : ¬ w = v := fun h => hvw h.symm
        simp only [Dict.get?, hvw, if_false, hsr, hwv]

theorem addCpds_tight {net net' : Net} {l : List (Node × Rel)} (hw : net.g.WF) (hnd : (l.map (·.1)).Nodup)
    (hh : ∀ p ∈ l, Honest p.2) (ht : Tight net) (hrh : RelsHonest net)
    (hnew : ∀ p ∈ l, net.rels.get? p.1 = none) (h : net.addCpds l = (net', .ok ())) : Tight net' := by
  induction l generalizing net with
  | nil =>
    simp only [addCpds, Prod.mk.injEq, and_true] at h
    exact h ▸ ht
  | cons p l ih =>
    obtain ⟨v, r⟩ := p
    unfold addCpds at h
    have hsr := fun w => net.set_rels v r w
    have hsm := net.set_m v r
    generalize hs : net.set v r = x at h hsr hsm
    obtain ⟨net1, y⟩ := x
    simp only [List.map_cons, List.nodup_cons] at hnd
    cases y with
    | error e => simp at h
    | ok u =>
      have hg1 : net1.g = net.g := congrArg Macid.g hsm.1
      obtain ⟨k1, k2⟩ := setItem_tight hw _ net net1 v r rfl ht hrh (hh (v, r) (by simp))
        (Or.inr (hnew (v, r) (by simp))) hs
      refine ih (hg1 ▸ hw) hnd.2 (fun p hp => hh p (by simp [hp])) k1 k2 (fun p hp => ?_) h
      have hpv : p.1 ≠ v := fun h' => hnd.1 (h' ▸ List.mem_map.2 ⟨p, hp, rfl⟩)
      have := hsr p.1
      simp only [hpv, if_false] at this
      rw [this]
      exact hnew p (by simp [hp])

theorem addCpds_run {g : Graph} (hw : g.WF) {rel : Node → Option Rel} {sol : Node → Option Cpd}
    {D : Dict Node (List Outcome)} (hS : Sol g rel sol D) {l : List (Node × Rel)} {net : Net}
    (hR : Run g rel sol net) (hsat : Sat g net []) (hl : ∀ p ∈ l, rel p.1 = some p.2) :
    ∃ net', net.addCpds l = (net', .ok ()) ∧ Run g rel sol net' ∧ Sat g net' [] := by
  obtain ⟨h, hr, hb⟩ := exists_rank hw
  induction l generalizing net with
  | nil => exact ⟨net, rfl, hR, hsat⟩
  | cons p l ih =>
    obtain ⟨v, r⟩ := p
    obtain ⟨net1, k1, k2, k3⟩ := setItem_run hw hS hr (net.g.nodes.length + 1) net v r []
      (by rw [hR.g_eq]; have := hb v; omega) hR (hl (v, r) (by simp))
      (fun w r hr hw => hsat w r hr (by simp))
    have k1' : net.set v r = (net1, .ok ()) := k1
    unfold addCpds
    rw [k1']
    exact ih k2 k3 (fun p hp => hl p (by simp [hp]))

/-- a run that has assigned all relationships has reached the solution -/
theorem Run.final {g : Graph} (hw : g.WF) {rel : Node → Option Rel} {sol : Node → Option Cpd}
    {D : Dict Node (List Outcome)} (hS : Sol g rel sol D) {net : Net} (hR : Run g rel sol net)
    (hsat : Sat g net []) (hall : ∀ v, net.rels.get? v = rel v) (v : Node) :
    net.cpds.get? v = sol v ∧ net.domain.get? v = D.get? v := by
  have key : ∀ v c, sol v = some c → net.cpds.get? v = some c := by
    intro v
    refine dag_induction hw (P := fun v => ∀ c, sol v = some c → net.cpds.get? v = some c) ?_ v
    intro v ih c hc
    obtain ⟨r, hr, hcomp⟩ := hS.cpd v c hc
    obtain ⟨c', hc'⟩ := hsat v r (by rw [hall, hr]) (by simp) (by
      by_cases ht : r.isTab = true
      · exact Or.inl ht
      · right
        intro p hp
        have : ∃ d, D.get? p = some d := by
          have key : ∀ {kind f force}, mkCpd kind v f force (g.parents v) D (cardOf D) = .ok c →
              ∃ d, D.get? p = some d := by
            intro kind f force hm
            obtain ⟨doms, _, _, _, _, h1, _⟩ := mkCpd_ok_iff.1 hm
            obtain ⟨d, _, hd⟩ := mapPy_mem h1 (Graph.mem_parents.2 hp)
            exact ⟨d, domOf_ok.1 hd⟩
          cases r with
          | tab _ => simp [Rel.isTab] at ht
          | func f => unfold computed at hcomp; exact key hcomp
          | dist f => unfold computed at hcomp; exact key hcomp
          | seq f => unfold computed at hcomp; exact key hcomp
        obtain ⟨d, hd⟩ := this
        rw [hS.dom] at hd
        cases hsp : sol p with
        | none => rw [hsp] at hd; simp at hd
        | some pc => exact ⟨pc, ih p hp pc hsp⟩)
    rw [hc', (hR.cpd v c' hc').1.symm.trans hc]
  have h1 : net.cpds.get? v = sol v := by
    cases hs : sol v with
    | some c => exact key v c hs
    | none =>
      cases hc : net.cpds.get? v with
      | none => rfl
      | some c =>
        have := (hR.cpd v c hc).1
        rw [hs] at this
        simp at this
  refine ⟨h1, ?_⟩
  rw [hS.dom, ← h1]
  cases hc : net.cpds.get? v with
  | none => exact hR.none v hc
  | some c => exact (hR.cpd v c hc).2.1

end Net

open Net

/-! ### C31 -/

/-- **C31** If adding relationships for distinct nodes to a fresh network succeeds in one order, it
succeeds in every order and gives the same relationships, CPDs and domains. -/
theorem C31_add_order_irrelevant {net net1 : Net} (hw : net.g.WF) (hf : net.Fresh)
    {l l' : List (Node × Rel)} (hp : l'.Perm l) (hnd : (l.map (·.1)).Nodup)
    (hn : ∀ p ∈ l, p.1 ∈ net.g.nodes) (hh : ∀ p ∈ l, Honest p.2)
    (h : net.addCpds l = (net1, .ok ())) :
    ∃ net2, net.addCpds l' = (net2, .ok ()) ∧ net2.g = net1.g ∧ ∀ v,
      net2.rels.get? v = net1.rels.get? v ∧ net2.cpds.get? v = net1.cpds.get? v ∧
      net2.domain.get? v = net1.domain.get? v := by
  have hnd' : (l'.map (·.1)).Nodup := (hp.map _).nodup_iff.2 hnd
  have hget : ∀ v, Dict.get? l' v = Dict.get? l v := by
    intro v
    cases hl : Dict.get? l v with
    | some r => exact Dict.get?_of_mem hnd' (hp.mem_iff.2 (Dict.mem_of_get? hl))
    | none =>
      by_contra hcon
      obtain ⟨r, hr⟩ := Option.ne_none_iff_exists'.1 hcon
      have := Dict.get?_of_mem hnd (hp.mem_iff.1 (Dict.mem_of_get? hr))
      rw [hl] at this
      simp at this
  obtain ⟨hg1, hi1, _⟩ := runs_inv (addCpds_runs h) hw (.ofFresh hf) hf.honest (by
    intro op ho
    obtain ⟨p, hp, rfl⟩ := List.mem_map.1 ho
    exact hh p hp)
  have ht1 := addCpds_tight hw hnd hh (.ofFresh hf) hf.honest (by simp [hf.1, Dict.get?]) h
  have hrel1 : ∀ v, net1.rels.get? v = Dict.get? l v := by
    intro v
    rw [addCpds_rels hnd h v, hf.1]
    cases Dict.get? l v <;> rfl
  have hS : Sol net.g (fun v => Dict.get? l v) (fun v => net1.cpds.get? v) net1.domain := by
    refine ⟨fun v => ?_, fun v c hc => ?_, fun v c hc => ?_, fun v r hr hrd => ?_, fun v r hr => ?_⟩
    · show net1.domain.get? v = (net1.cpds.get? v).map Cpd.domain
      cases hc : net1.cpds.get? v with
      | none => exact ht1.nostale v hc
      | some c => exact (hi1.cpd v c hc).1
    · obtain ⟨_, r, k2, k3⟩ := hi1.cpd v c hc
      exact ⟨r, by rw [← hrel1, k2], by rw [← hg1]; exact k3 (by simp)⟩
    · rw [← hg1]; exact hi1.scope v c hc
    · refine hi1.sat v r (by rw [hrel1, hr]) (by simp) (hrd.imp_right (fun h' p hp => ?_))
      rw [hg1] at hp
      obtain ⟨c, hc⟩ := h' p hp
      exact ⟨c.domain, (hi1.cpd p c hc).1⟩
    · exact hn (v, r) (Dict.mem_of_get? hr)
  have hR0 : Run net.g (fun v => Dict.get? l v) (fun v => net1.cpds.get? v) net := by
    obtain ⟨f1, f2, f3⟩ := hf
    refine ⟨rfl, ?_, ?_, ?_⟩ <;> intro v <;> simp [f1, f2, f3, Dict.get?]
  obtain ⟨net2, k1, k2, k3⟩ := addCpds_run hw hS (l := l') hR0
    (by intro v r hr; rw [hf.1] at hr; simp [Dict.get?] at hr)
    (fun p hp' => Dict.get?_of_mem hnd (hp.mem_iff.1 hp'))
  have hrel2 : ∀ v, net2.rels.get? v = Dict.get? l v := by
    intro v
    rw [addCpds_rels hnd' k1 v, hf.1, ← hget]
    cases Dict.get? l' v <;> rfl
  refine ⟨net2, k1, by rw [hg1, k2.g_eq], fun v => ?_⟩
  obtain ⟨e1, e2⟩ := k2.final hw hS k3 hrel2 v
  exact ⟨by rw [hrel1, hrel2], e1, e2⟩

example : Ex.net0.g.WF ∧ Ex.net0.Fresh ∧ (Ex.rels.map (·.1)).Nodup ∧
    (∀ p ∈ Ex.rels, p.1 ∈ Ex.net0.g.nodes) ∧ (∀ p ∈ Ex.rels, Honest p.2) ∧
    (∃ net1, Ex.net0.addCpds Ex.rels = (net1, .ok ()) ∧
      net1.domain.get? "U" = some [0, 1]) ∧ Ex.rels.reverse ≠ [] :=
  ⟨Ex.net0_wf, Ex.net0_fresh, by decide +kernel, by decide +kernel, Ex.rels_honest,
    ⟨_, Ex.net_eq, by decide +kernel⟩, by simp [Ex.rels]⟩

/-! ### C32 -/

/-- **C32** After any successful history of assignments and deletions in which every node ends up
with a relationship, every node has a CPD and its domain is recorded. -/
theorem C32_all_nodes_instantiated {net net' : Net} {ops : List Op} (hw : net.g.WF) (hf : net.Fresh)
    (ho : ∀ op ∈ ops, op.Honest) (h : Runs net ops net')
    (hk : ∀ v ∈ net.g.nodes, v ∈ net'.rels.keys) : net'.Complete := by
  obtain ⟨hg, hi, _⟩ := runs_inv h hw (.ofFresh hf) hf.honest ho
  exact hi.complete (hg ▸ hw) (hg ▸ hk)

/-- **C32** for `add_cpds`: a relationship for every node, in any order. -/
theorem C32_add_cpds_complete {net net' : Net} {l : List (Node × Rel)} (hw : net.g.WF) (hf : net.Fresh)
    (hnd : (l.map (·.1)).Nodup) (hh : ∀ p ∈ l, Honest p.2) (hall : ∀ v ∈ net.g.nodes, v ∈ l.map (·.1))
    (h : net.addCpds l = (net', .ok ())) : net'.Complete := by
  refine C32_all_nodes_instantiated hw hf (ops := l.map (fun p => Op.set p.1 p.2)) ?_ (addCpds_runs h) ?_
  · intro op ho
    obtain ⟨p, hp, rfl⟩ := List.mem_map.1 ho
    exact hh p hp
  · intro v hv
    obtain ⟨p, hp, e⟩ := List.mem_map.1 (hall v hv)
    rw [Dict.mem_keys, addCpds_rels hnd h v]
    have : Dict.get? l v = some p.2 := Dict.get?_of_mem hnd (by rw [← e]; exact hp)
    exact ⟨p.2, by rw [this]⟩

example : Runs Ex.net0 (Ex.rels.map (fun p => Op.set p.1 p.2)) Ex.net ∧
    (∀ v ∈ Ex.net0.g.nodes, v ∈ Ex.net.rels.keys) ∧ (∀ v ∈ Ex.net0.g.nodes, v ∈ Ex.rels.map (·.1)) :=
  ⟨addCpds_runs Ex.net_eq, by decide +kernel, by decide +kernel⟩

/-! ### C33 -/

/-- **C33** After any successful history of assignments and deletions every CPD is the one its
current relationship and the current domains of the parents determine. -/
theorem C33_cpds_reflect_relationships {net net' : Net} {ops : List Op} (hw : net.g.WF) (hf : net.Fresh)
    (ho : ∀ op ∈ ops, op.Honest) (h : Runs net ops net') : net'.Reflects :=
  (runs_inv h hw (.ofFresh hf) hf.honest ho).2.1.reflects

/-- **C33** The last assigned relationship is the one that counts, also for calls that raised. -/
theorem C33_last_relationship (net : Net) (v : Node) (r : Rel) (w : Node) :
    (net.set v r).1.rels.get? w = if w = v then some r else net.rels.get? w := set_rels net v r w

/-- a history with a re-assignment that changes a domain and a deletion -/
def Ex.ops : List Op := Ex.rels.map (fun p => Op.set p.1 p.2) ++
  [.set "A" (.dist [(0, some (1 / 2)), (5, none)]), .del "D", .set "D" (.seq [0, 1, 5])]

example : (∀ op ∈ Ex.ops, op.Honest) ∧ ∃ net', Runs Ex.net0 Ex.ops net' ∧
    net'.domain.get? "A" = some [0, 5] ∧ (net'.cpds.get? "U").map (fun c => c.evCard) = some [3, 2] := by
  refine ⟨?_, ?_⟩
  · intro op hop
    simp only [Ex.ops, List.mem_append, List.mem_map, List.mem_cons, List.not_mem_nil, or_false] at hop
    rcases hop with ⟨p, hp, rfl⟩ | rfl | rfl | rfl
    · exact Ex.rels_honest p hp
    · trivial
    · trivial
    · trivial
  · have h1 := addCpds_runs Ex.net_eq
    have step : ∀ (net : Net) op, (net.run op).2 = .ok () → net.run op = ((net.run op).1, .ok ()) := by
      intro net op h
      rw [← h]
    have app : ∀ {a b c : Net} {x y}, Runs a x b → Runs b y c → Runs a (x ++ y) c := by
      intro a b c x y hx hy
      induction hx with
      | nil => exact hy
      | cons h _ ih => exact .cons h (ih hy)
    refine ⟨_, app h1 (.cons (step _ _ ?_) (.cons (step _ _ ?_) (.cons (step _ _ ?_) (.nil _)))), ?_, ?_⟩
    all_goals decide +kernel

/-- `Y` and `Z` are functions of `X`; that of `Y` does not know the value 5 -/
def Ex.stale0 : Net := ((⟨⟨⟨["X", "Y", "Z"], [("X", "Y"), ("X", "Z")]⟩, [], [], [], []⟩, [], [], [], Macid.new⟩ : Net).addCpds
  [("X", .dist [(0, some (1 / 2)), (1, some (1 / 2))]), ("Y", .func (fun pv => if pv "X" = some 5 then .error .value else .ok (.val 0))),
    ("Z", .func (fun pv => .ok (.val ((pv "X").getD 0))))]).1

/-- the outcomes of `X`, those the CPD of `Z` was computed for, and those of `Z` -/
def Ex.staleView (net : Net) : Option (List Outcome) × Option (List Nat × List Outcome) :=
  (net.domain.get? "X", (net.cpds.get? "Z").map (fun c => (c.evCard, c.domain)))

/-- **C33** (negative) "successful" matters: a new domain for `X` is refused because the function of `Y` raises, and the CPD of `Z`
is still the one for the old domain.  Giving `Y` a function that works and assigning `X` once more does not help, as the domain
of `X` is then the same as before; assigning `Z` again does. -/
theorem C33_failed_assignment_stale :
    let r : Rel := .dist [(0, some (1 / 3)), (1, some (1 / 3)), (5, some (1 / 3))]
    let good : Rel := .func (fun _ => .ok (.val 0))
    let n1 := Ex.stale0.set "X" r
    let n2 := n1.1.set "Y" good
    let n3 := n2.1.set "X" r
    let n4 := n3.1.set "Z" (.func (fun pv => .ok (.val ((pv "X").getD 0))))
    Ex.staleView Ex.stale0 = (some [0, 1], some ([2], [0, 1])) ∧
    n1.2 = .error .value ∧ Ex.staleView n1.1 = (some [0, 1, 5], some ([2], [0, 1])) ∧
    n2.2 = .ok () ∧ Ex.staleView n2.1 = (some [0, 1, 5], some ([2], [0, 1])) ∧
    n3.2 = .ok () ∧ Ex.staleView n3.1 = (some [0, 1, 5], some ([2], [0, 1])) ∧
    n4.2 = .ok () ∧ Ex.staleView n4.1 = (some [0, 1, 5], some ([3], [0, 1, 5])) := by
  intro r good n1 n2 n3 n4
  refine ⟨?_, ?_, ?_, ?_, ?_, ?_, ?_, ?_, ?_⟩ <;> decide +kernel

/-! ### C34 -/

/-- **C34** (negative) A rejected assignment has already replaced the relationship and dropped the
CPD of the variable. -/
theorem C34_rejected_not_atomic {net : Net} {v : Node} {r : Rel} {e : Err} (he : e ≠ .parentsNotReady)
    (hr : (stage net v r).toCpd v r = .error e) :
    (net.set v r).2 = .error e ∧ (net.set v r).1.rels.get? v = some r ∧ (net.set v r).1.cpds.get? v = none := by
  have : net.set v r = (stage net v r, .error e) := by
    rcases setItem_cases net.g.nodes.length net v r with ⟨h1, _⟩ | ⟨e', _, h1, h2⟩ | ⟨c, h1, _⟩
    · rw [hr] at h1
      simp only [Except.error.injEq] at h1
      exact absurd h1 he
    · rw [hr] at h1
      simp only [Except.error.injEq] at h1
      subst h1
      exact h2
    · rw [hr] at h1
      simp at h1
  rw [this]
  exact ⟨rfl, by rw [stage_rels]; simp, by rw [stage_cpds]; simp⟩

/-- **C34** (negative, concrete) A network that was set up without error, and an assignment that
raises ValueError, after which the variable has lost its CPD although it had one. -/
theorem C34_counterexample : ∃ (net : Net) (v : Node) (r : Rel),
    (∃ ops net0, net0.g.WF ∧ net0.Fresh ∧ Runs net0 ops net) ∧
    (net.cpds.get? v).isSome = true ∧ (net.set v r).2 = .error .value ∧
    (net.set v r).1.cpds.get? v = none := by
  refine ⟨Ex.net, "A", .dist [(0, some 2)], ⟨_, _, Ex.net0_wf, Ex.net0_fresh, addCpds_runs Ex.net_eq⟩, ?_⟩
  have h : (stage Ex.net "A" (.dist [(0, some 2)])).toCpd "A" (.dist [(0, some 2)]) = .error .value :=
    errIs (by decide +kernel)
  obtain ⟨h1, _, h3⟩ := C34_rejected_not_atomic (by decide) h
  exact ⟨by decide +kernel, h1, h3⟩

end Verif
