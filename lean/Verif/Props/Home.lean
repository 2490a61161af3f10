import Verif.Spec.Home
import Verif.Props.Copy
import Verif.Lemmas.Do
import Verif.Lemmas.Build
import Verif.Lemmas.Policies
import Verif.Props.Query

/-!
# C104: copies of copies
-/

namespace Verif
open Net
namespace Net

theorem copyRelAt_spec {home net : Net} (hG : Good net) {v : Node} {r : Rel} {c : Cpd}
    (hr : net.rels.get? v = some r) (hc : net.cpds.get? v = some c)
    (hA : ∀ c0, r = .tab c0 → c0.kind ≠ .tabular → home.Alike net v) :
    ∃ r' c', home.copyRelAt v r = .ok r' ∧ computed net.g net.domain v r' = .ok c' ∧ net.SameCpd c c' ∧
      c'.Fits net.g net.domain v ∧ c'.WellFormed ∧ (c'.kind = .decision ↔ c.kind = .decision) ∧
      (∀ c1, r' = .tab c1 → c1.kind ≠ .tabular → ∃ c2,
        mkCpd c1.kind c1.var c1.func c1.force (net.g.parents v) net.domain (cardOf net.domain) = .ok c2 ∧
          net.SameCpd c1 c2 ∧ ∀ p ∈ c1.evidence, net.g.Edge p v) := by
  obtain ⟨r0, c0, h1, h2, h3, h4, h5, h6, h7⟩ := copyRel_spec hG hr hc
  have triv : home.copyRelAt v r = net.copyRel v r → ∃ r' c', home.copyRelAt v r = .ok r' ∧
      computed net.g net.domain v r' = .ok c' ∧ net.SameCpd c c' ∧
      c'.Fits net.g net.domain v ∧ c'.WellFormed ∧ (c'.kind = .decision ↔ c.kind = .decision) ∧
      (∀ c1, r' = .tab c1 → c1.kind ≠ .tabular → ∃ c2,
        mkCpd c1.kind c1.var c1.func c1.force (net.g.parents v) net.domain (cardOf net.domain) = .ok c2 ∧
          net.SameCpd c1 c2 ∧ ∀ p ∈ c1.evidence, net.g.Edge p v) := by
    intro e
    refine ⟨r0, c0, by rw [e, h1], h2, h3, h4, h5, h6, fun c1 e1 hne => ⟨c1, h7 c1 e1 hne, ⟨rfl, fun _ _ _ => rfl⟩, fun p hp => ?_⟩⟩
    rw [(mkCpd_fields (h7 c1 e1 hne)).2.1] at hp
    exact Graph.mem_parents.1 hp
  cases r with
  | func f => exact triv rfl
  | dist f => exact triv rfl
  | seq f => exact triv rfl
  | tab ct =>
    by_cases hk : ct.kind = .tabular
    · exact triv (by simp [copyRelAt, copyRel, hk])
    · have hh := hA ct rfl hk
      have hperm : (home.g.parents v).Perm (net.g.parents v) :=
        (List.perm_ext_iff_of_nodup (Graph.nodup_parents hh.simple v) (Graph.nodup_parents hG.wf.edgesNodup v)).2
          (fun p => by rw [Graph.mem_parents, Graph.mem_parents, hh.parents])
      have hpn : ∀ p ∈ net.g.parents v, p ∈ net.g.nodes := fun p hp =>
        (hG.wf.edgeNodes p v (Graph.mem_parents.1 hp)).1
      obtain ⟨k, hk1, hcr⟩ : ∃ k, k ≠ .tabular ∧ ∀ n : Net, n.copyRel v (.tab ct) =
          match mkCpd k ct.var ct.func ct.force (n.g.parents v) n.domain n.card with
          | .error e => .error e
          | .ok c => .ok (.tab c) := by
        cases hkk : ct.kind with
        | tabular => exact absurd hkk hk
        | decision => exact ⟨.decision, by simp, fun n => by
            simp only [copyRel, hkk]
            split <;> simp_all⟩
        | stochastic => exact ⟨.stochastic, by simp, fun n => by
            simp only [copyRel, hkk]
            split <;> simp_all⟩
        | constant => exact ⟨.stochastic, by simp, fun n => by
            simp only [copyRel, hkk]
            split <;> simp_all⟩
      rw [hcr net] at h1
      cases hm : mkCpd k ct.var ct.func ct.force (net.g.parents v) net.domain net.card with
      | error e => rw [hm] at h1; simp at h1
      | ok cm =>
        rw [hm] at h1
        simp only [Except.ok.injEq] at h1
        subst h1
        simp only [computed, Except.ok.injEq] at h2
        subst h2
        obtain ⟨ch, e1, e2, e3⟩ := mkCpd_perm (Graph.nodup_parents hG.wf.edgesNodup v) hperm hm
        have e1' : mkCpd k ct.var ct.func ct.force (home.g.parents v) home.domain home.card = .ok ch := by
          rw [← e1]
          exact mkCpd_congr (fun p hp => hh.domain p ((hh.parents p).1 (Graph.mem_parents.1 hp)))
            (fun p hp => hh.card p ((hh.parents p).1 (Graph.mem_parents.1 hp)))
        obtain ⟨f1, f2, f3, f4, f5, f6⟩ := mkCpd_fields e1
        obtain ⟨g1, g2, g3, g4, g5, g6⟩ := mkCpd_fields hm
        have hsame : net.SameCpd cm ch := ⟨e2, fun a ha x => e3 a (ha.inDoms hG.complete hpn) x⟩
        have hfits := h4
        have hev : ∀ p ∈ ch.evidence, net.g.Edge p v := by
          intro p hp
          rw [f2] at hp
          exact Graph.mem_parents.1 (hperm.mem_iff.1 hp)
        have hcard : mkCpd k ct.var ct.func ct.force (home.g.parents v) net.domain (cardOf net.domain) = .ok ch := by
          rw [← e1]
          exact mkCpd_congr (fun _ _ => rfl) (fun p hp => (card_eq_cardOf hG (hpn p (hperm.mem_iff.1 hp))).symm)
        refine ⟨.tab ch, ch, ?_, rfl, ⟨hsame.1.trans h3.1, fun a ha x => (hsame.2 a ha x).trans (h3.2 a ha x)⟩, ?_, ?_, ?_, ?_⟩
        · simp only [copyRelAt, hk, if_false, hh.node, if_true]
          rw [hcr home, e1']
        · have hvar : ct.var = v := by rw [← g1, h4.var]
          have hf := mkCpd_fits (g := home.g) (by rw [hvar] at hcard; exact hcard)
          exact ⟨hf.var, fun p => by rw [f2, hperm.mem_iff, Graph.mem_parents], hf.cards, hf.sums⟩
        · exact mkCpd_wf e1 (hperm.nodup_iff.2 (Graph.nodup_parents hG.wf.edgesNodup v)) (e2 ▸ h5.nonempty)
        · rw [f3, ← g3]; exact h6
        · intro c1 e _
          simp only [Rel.tab.injEq] at e
          subst e
          refine ⟨cm, ?_, ⟨hsame.1.symm, fun a ha x => (hsame.2 a ha x).symm⟩, hev⟩
          rw [f1, f3, f4, f5, ← hm]
          exact mkCpd_congr (fun _ _ => rfl) (fun p hp => (card_eq_cardOf hG (hpn p hp)).symm)

theorem Equiv.trans {a b c : Net} (h : Equiv a b) (h' : Equiv b c) : Equiv a c :=
  ⟨h'.nodes.trans h.nodes, fun u v => (h'.edges u v).trans (h.edges u v),
    fun v hv => (h'.domain v (h.nodes ▸ hv)).trans (h.domain v hv),
    fun v hv => (h'.undecided v (h.nodes ▸ hv)).trans (h.undecided v hv),
    fun v hv x hx => (h'.kernel v (h.nodes ▸ hv) x ((h.inDom x).2 hx)).trans (h.kernel v hv x hx)⟩

theorem copyLoopWith_eq {home : Node → Net} {ρ : Node × Rel → Rel} {l : List (Node × Rel)} {acc : Net}
    (h : ∀ p ∈ l, (home p.1).copyRelAt p.1 p.2 = .ok (ρ p)) {acc' : Net}
    (ha : acc.addCpds (l.map (fun p => (p.1, ρ p))) = (acc', .ok ())) : copyLoopWith home acc l = .ok acc' := by
  induction l generalizing acc with
  | nil =>
    simp only [List.map_nil, addCpds, Prod.mk.injEq, and_true] at ha
    subst ha
    rfl
  | cons p l ih =>
    obtain ⟨v, r⟩ := p
    unfold copyLoopWith
    have h1 := h (v, r) (by simp)
    simp only at h1
    simp only [h1]
    simp only [List.map_cons, addCpds] at ha
    generalize hs : acc.set v (ρ (v, r)) = x at ha
    obtain ⟨n1, y⟩ := x
    cases y with
    | error e => simp at ha
    | ok u =>
      simp only at ha ⊢
      exact ih (fun p hp => h p (by simp [hp])) ha

theorem copyLoopWith_self {net : Net} {l : List (Node × Rel)} (hl : ∀ p ∈ l, p.1 ∈ net.g.nodes) {acc : Net} :
    copyLoopWith (fun _ => net) acc l = copyLoop net acc l := by
  induction l generalizing acc with
  | nil => rfl
  | cons p l ih =>
    obtain ⟨v, r⟩ := p
    have e : net.copyRelAt v r = net.copyRel v r := by
      cases r with
      | tab c =>
        by_cases hk : c.kind = .tabular
        · simp [copyRelAt, copyRel, hk]
        · have hv : v ∈ net.g.nodes := hl (v, .tab c) (by simp)
          simp [copyRelAt, hk, hv]
      | _ => rfl
    unfold copyLoopWith copyLoop
    rw [e]
    cases net.copyRel v r with
    | error e => rfl
    | ok r' =>
      simp only
      generalize acc.set v r' = x
      obtain ⟨n1, y⟩ := x
      cases y with
      | error e => rfl
      | ok u => exact ih (fun p hp => hl p (by simp [hp]))

theorem copyLoopWith_free {h1 h2 : Node → Net} {l : List (Node × Rel)}
    (hl : ∀ p ∈ l, ∀ c, p.2 = .tab c → c.kind = .tabular) {acc : Net} :
    copyLoopWith h1 acc l = copyLoopWith h2 acc l := by
  induction l generalizing acc with
  | nil => rfl
  | cons p l ih =>
    obtain ⟨v, r⟩ := p
    have e : (h1 v).copyRelAt v r = (h2 v).copyRelAt v r := by
      cases r with
      | tab c => simp [copyRelAt, hl (v, .tab c) (by simp) c rfl]
      | _ => rfl
    unfold copyLoopWith
    rw [e]
    cases (h2 v).copyRelAt v r with
    | error e => rfl
    | ok r' =>
      simp only
      generalize acc.set v r' = x
      obtain ⟨n1, y⟩ := x
      cases y with
      | error e => rfl
      | ok u => exact ih (fun p hp => hl p (by simp [hp]))

end Net

/-- A network none of whose CPD objects refers elsewhere is copied as before: `Net.copy`. -/
theorem C104_own {net : Net} (h : ∀ v ∈ net.rels.keys, v ∈ net.g.nodes) : net.copyWith (fun _ => net) = net.copy := by
  unfold copyWith copy
  cases Macid.copyWithoutCpds net.base net.m with
  | error e => rfl
  | ok m => exact copyLoopWith_self (fun p hp => h p.1 (List.mem_map_of_mem (f := (·.1)) hp))

/-- **C104** Copying a network that holds no CPD objects (only functions, distributions, lists and plain
tables) does not depend on any other network. -/
theorem C104_free (net : Net) (home₁ home₂ : Node → Net)
    (h : ∀ p ∈ net.rels, ∀ c, p.2 = .tab c → c.kind = .tabular) : net.copyWith home₁ = net.copyWith home₂ := by
  unfold copyWith
  cases Macid.copyWithoutCpds net.base net.m with
  | error e => rfl
  | ok m => exact copyLoopWith_free h

/-- **C104** Copying a usable network whose CPD objects refer to other networks gives a faithful copy, as long
as those networks still have, for the variables in question, the same parents with the same domains. -/
theorem C104_alike {net : Net} (hU : net.Usable) (home : Node → Net)
    (hh : ∀ v c, net.rels.get? v = some (.tab c) → c.kind ≠ .tabular → (home v).Alike net v) :
    ∃ net', net.copyWith home = .ok net' ∧ net'.Usable ∧ Equiv net net' ∧ ∀ n, net'.m.role n = net.m.role n := by
  have hG := hU.good
  obtain ⟨m', h1, h2, h3, h4, h5⟩ := C16_copy_exact net.m hU.roles net.base hU.base hU.staffed.both
  have hcr : ∀ p ∈ net.rels, ∃ r', (home p.1).copyRelAt p.1 p.2 = .ok r' := by
    intro p hp
    have hr := Dict.get?_of_mem hG.keys hp
    obtain ⟨c, hc, _⟩ := hG.complete p.1 (hG.relNodes p.1 (Dict.mem_keys.2 ⟨_, hr⟩))
    obtain ⟨r', _, e, _⟩ := copyRelAt_spec (home := home p.1) hG hr hc (fun c0 e hne => hh p.1 c0 (by rw [hr, e]) hne)
    exact ⟨r', e⟩
  have : Nonempty Rel := ⟨.seq []⟩
  choose! ρ hρ using hcr
  have hkeys : (net.rels.map (fun p => (p.1, ρ p))).map (·.1) = net.rels.keys := by
    rw [List.map_map]; rfl
  have hget : ∀ v r', Dict.get? (net.rels.map (fun p => (p.1, ρ p))) v = some r' →
      ∃ r, net.rels.get? v = some r ∧ (home v).copyRelAt v r = .ok r' := by
    intro v r' h
    have hmem := Dict.mem_of_get? h
    obtain ⟨p, hp, e⟩ := List.mem_map.1 hmem
    cases e
    exact ⟨p.2, Dict.get?_of_mem hG.keys hp, hρ p hp⟩
  obtain ⟨net', k1, k2, k3, k4, k5, k6, k7⟩ := rebuild (net := net) (acc := ⟨m', [], [], [], net.base⟩) hG
    ⟨rfl, rfl, rfl⟩ h3 h2.wf h4 (l := net.rels.map (fun p => (p.1, ρ p)))
    (by rw [hkeys]; exact hG.keys)
    (by
      intro v
      rw [hkeys]
      refine ⟨hG.relNodes v, fun hv => ?_⟩
      obtain ⟨c, hc, _⟩ := hG.complete v hv
      obtain ⟨_, r, hr, _⟩ := hG.reflects v c hc
      exact Dict.mem_keys.2 ⟨r, hr⟩)
    (by
      intro v r' c hr' hc
      obtain ⟨r, e1, e2⟩ := hget v r' hr'
      obtain ⟨r'', c', q1, q⟩ := copyRelAt_spec (home := home v) hG e1 hc (fun c0 e hne => hh v c0 (by rw [e1, e]) hne)
      rw [e2] at q1
      cases q1
      exact ⟨c', q⟩)
  obtain ⟨n2, c1, c2, _⟩ := hU.copy
  obtain ⟨n3, d1, _, _, _, _, d6, _, _, m3, d8, d9⟩ := copy_spec hG hU.roles hU.base hU.staffed.both
  rw [c1] at d1
  cases d1
  rw [h1] at d8
  cases d8
  have hst : net'.Staffed := by
    obtain ⟨q1, q2⟩ := c2.staffed
    rw [d9, d6] at q2
    rw [d9] at q1
    exact ⟨by rw [k4]; exact q1, by rw [k4, k5]; exact q2⟩
  refine ⟨net', ?_, ⟨k2, k3.normalised hU.normalised, by rw [k4]; exact h2, by rw [k5]; exact hU.base, hst⟩, k3,
    fun n => by rw [k4]; exact h5 n⟩
  unfold copyWith
  rw [h1]
  exact copyLoopWith_eq hρ k1

/-- **C104** Copies, copies of copies and so on of a usable network that is left alone are faithful, and
can be copied again. -/
theorem C104_copies {a b : Net} (hU : a.Usable) (h : CopyOf a b) :
    b.Usable ∧ Equiv a b ∧ (∀ n, b.m.role n = a.m.role n) ∧
      ∃ c, b.copyWith (fun _ => a) = .ok c ∧ Equiv a c := by
  have key : ∀ b : Net, b.Usable → Equiv a b → ∃ c, b.copyWith (fun _ => a) = .ok c ∧ c.Usable ∧ Equiv b c ∧
      ∀ n, c.m.role n = b.m.role n := by
    intro b hb he
    refine C104_alike hb (fun _ => a) (fun v c hc hne => ?_)
    have hv : v ∈ b.g.nodes := hb.good.relNodes v (Dict.mem_keys.2 ⟨_, hc⟩)
    have hpa : ∀ p, b.g.Edge p v → p ∈ a.g.nodes := fun p hp =>
      (hU.good.wf.edgeNodes p v ((he.edges p v).1 hp)).1
    have hd : ∀ p, b.g.Edge p v → a.domain.get? p = b.domain.get? p := fun p hp => (he.domain p (hpa p hp)).symm
    refine ⟨by rw [← he.nodes]; exact hv, hU.good.wf.edgesNodup, fun p => (he.edges p v).symm, hd, fun p hp => ?_⟩
    rw [card_eq_cardOf hU.good (hpa p hp), card_eq_cardOf hb.good (by rw [he.nodes]; exact hpa p hp)]
    simp [cardOf, hd p hp]
  have main : b.Usable ∧ Equiv a b ∧ ∀ n, b.m.role n = a.m.role n := by
    induction h with
    | one h =>
      obtain ⟨n, h1, h2, h3, h4, _⟩ := hU.copy
      rw [h] at h1
      cases h1
      exact ⟨h2, h3, h4⟩
    | more _ h ih =>
      obtain ⟨i1, i2, i3⟩ := ih
      obtain ⟨n, h1, h2, h3, h4⟩ := key _ i1 i2
      rw [h] at h1
      cases h1
      exact ⟨h2, i2.trans h3, fun n => (h4 n).trans (i3 n)⟩
  obtain ⟨m1, m2, m3⟩ := main
  obtain ⟨c, e1, e2, e3, _⟩ := key b m1 m2
  exact ⟨m1, m2, m3, c, e1, m2.trans e3⟩

/-- `lambda A: int(A == 1)`; Python raises TypeError when `A` is not passed -/
def ExHome.follow : Func := fun pv =>
  match pv "A" with
  | none => .error .type
  | some a => .ok (.val (if a = 1 then 1 else 0))

/-- an object `StochasticFunctionCPD("D", lambda A: int(A == 1), net, domain=[0, 1])` -/
def ExHome.rule : Cpd := (mkCpd .stochastic "D" ExHome.follow (some [0, 1])
  (Ex.net.g.parents "D") Ex.net.domain (cardOf Ex.net.domain)).toOption.getD ⟨"", [], [], [], [], .tabular, fun _ => .error .key, none⟩

/-- the original: `A → D → U`, `A → U`, and the decision is given by that object -/
def ExHome.a : Net := (Ex.net.set "D" (.tab ExHome.rule)).1

/-- its copy -/
def ExHome.b : Net := ExHome.a.copy.toOption.getD Ex.net0

/-- the original after `a.model["A"] = {2: 1/4, 3: 3/4}` -/
def ExHome.a₁ : Net := (ExHome.a.set "A" (.dist [(2, some (1 / 4)), (3, some (3 / 4))])).1

/-- the original after `a.model["A"] = {0: 1/4, 1: 1/4, 2: 1/2}` -/
def ExHome.a₂ : Net := (ExHome.a.set "A" (.dist [(0, some (1 / 4)), (1, some (1 / 4)), (2, some (1 / 2))])).1

/-- the original after `a.intervene({"D": 0})` -/
def ExHome.a₃ : Net := (ExHome.a.intervene [("D", 0)]).1

theorem ExHome.usable : ExHome.a.Usable := by
  have hm : mkCpd .stochastic "D" ExHome.follow (some [0, 1]) (Ex.net.g.parents "D") Ex.net.domain (cardOf Ex.net.domain) =
      .ok ExHome.rule := by
    have : (mkCpd .stochastic "D" ExHome.follow (some [0, 1]) (Ex.net.g.parents "D") Ex.net.domain
        (cardOf Ex.net.domain)).toOption.isSome = true := by decide +kernel
    unfold ExHome.rule
    cases h : mkCpd .stochastic "D" ExHome.follow (some [0, 1]) (Ex.net.g.parents "D") Ex.net.domain (cardOf Ex.net.domain) with
    | error e => rw [h] at this; cases this
    | ok c => rfl
  obtain ⟨net', h1, h2, h3, h4⟩ := (accept_mkCpd Ex.net_usable.good (by decide +kernel) hm (by decide +kernel)).set
    Ex.net_usable.good (by decide +kernel)
  have e : ExHome.a = net' := by unfold ExHome.a; rw [h1]
  rw [e]
  exact h3.usable Ex.net_usable h2 (normalised_of_exact h2 (by rw [← e]; decide +kernel))

theorem ExHome.copied : ExHome.a.copy = .ok ExHome.b := by
  obtain ⟨n, h, _⟩ := ExHome.usable.copy
  unfold ExHome.b
  rw [h]
  rfl

/-- **C104** (what goes wrong) `b` is a copy of the usable network `a`, so it is usable, and the decision matches
A for sure.  Then only `a` is changed.  Giving `A` other outcomes in `a` changes what `b.copy()` returns: the
decision is now always 0 there.  Giving it a third outcome makes `b.copy()` a network that pgmpy's `check_model` rejects,
so that queries of it raise ValueError.  Intervening on the decision in `a` makes `b.copy()` itself raise TypeError. -/
theorem C104_original_changed :
    ExHome.a.Usable ∧ ExHome.a.copy = .ok ExHome.b ∧ ExHome.b.Usable ∧ ExHome.b.EU 0 = 1 ∧
    (ExHome.a.set "A" (.dist [(2, some (1 / 4)), (3, some (3 / 4))])).2 = .ok () ∧
    (ExHome.b.copyWith (fun _ => ExHome.a₁)).toOption.map (fun c => (c.checkModel, c.EU 0, c.dom "A")) =
      some (true, 1 / 4, ExHome.b.dom "A") ∧
    (ExHome.a.set "A" (.dist [(0, some (1 / 4)), (1, some (1 / 4)), (2, some (1 / 2))])).2 = .ok () ∧
    (ExHome.b.copyWith (fun _ => ExHome.a₂)).toOption.map (fun c => c.infer id ["U"] []) = some (.error .value) ∧
    (ExHome.a.intervene [("D", 0)]).2 = .ok () ∧
    (match ExHome.b.copyWith (fun _ => ExHome.a₃) with
      | .error e => decide (e = .type)
      | .ok _ => false) = true := by
  refine ⟨ExHome.usable, ExHome.copied, ?_, ?_⟩
  · obtain ⟨n, h, h2, _⟩ := ExHome.usable.copy
    rw [ExHome.copied] at h
    cases h
    exact h2
  · decide +kernel

/-- The copies of this network, while it is left alone, can be copied. -/
theorem C104_example : ∃ b c, CopyOf ExHome.a b ∧ CopyOf ExHome.a c ∧ b.copyWith (fun _ => ExHome.a) = .ok c ∧
    c.Usable ∧ ∃ r, b.rels.get? "D" = some (.tab r) ∧ r.kind = .stochastic := by
  have h1 : CopyOf ExHome.a ExHome.b := .one ExHome.copied
  obtain ⟨_, _, _, c, h2, _⟩ := C104_copies ExHome.usable h1
  refine ⟨ExHome.b, c, h1, .more h1 h2, h2, (C104_copies ExHome.usable (.more h1 h2)).1, ?_⟩
  have : (match ExHome.b.rels.get? "D" with
    | some (.tab r) => decide (r.kind = .stochastic)
    | _ => false) = true := by decide +kernel
  generalize ExHome.b.rels.get? "D" = x at this ⊢
  cases x with
  | none => cases this
  | some r =>
    cases r with
    | tab c => exact ⟨c, rfl, by simpa using this⟩
    | _ => cases this

end Verif
