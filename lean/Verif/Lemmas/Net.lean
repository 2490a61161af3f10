import Verif.Spec.Net
import Verif.Lemmas.Cpd
import Verif.Lemmas.Graph

/-!
# The model dictionary: cascades
-/

namespace Verif
open Relation

theorem mapPy_congr {α β : Type} {f f' : α → Py β} {xs : List α} (h : ∀ x ∈ xs, f x = f' x) :
    mapPy f xs = mapPy f' xs := by
  induction xs with
  | nil => rfl
  | cons x xs ih =>
    unfold mapPy
    rw [h x (by simp), ih (fun y hy => h y (by simp [hy]))]

theorem mkCpd_congr {kind : CpdKind} {v : Node} {f : Func} {force : Option (List Outcome)}
    {ps : List Node} {dom dom' : Dict Node (List Outcome)} {card card' : Node → Py Nat}
    (hd : ∀ p ∈ ps, dom.get? p = dom'.get? p) (hc : ∀ p ∈ ps, card p = card' p) :
    mkCpd kind v f force ps dom card = mkCpd kind v f force ps dom' card' := by
  have h1 : parentDoms ps dom = parentDoms ps dom' := mapPy_congr (fun p hp => by simp [domOf, hd p hp])
  have h2 : mapPy card ps = mapPy card' ps := mapPy_congr hc
  simp only [mkCpd, parentValues, h1, h2]

theorem mkCpd_ok_card {kind : CpdKind} {v : Node} {f : Func} {force : Option (List Outcome)}
    {ps : List Node} {dom dom' : Dict Node (List Outcome)} {card card' : Node → Py Nat} {c : Cpd}
    (h : mkCpd kind v f force ps dom card = .ok c)
    (hd : ∀ p ∈ ps, dom.get? p = dom'.get? p) (hc : ∀ p ∈ ps, ∀ n, card p = .ok n → card' p = .ok n) :
    mkCpd kind v f force ps dom' card' = .ok c := by
  rw [← h]
  refine (mkCpd_congr hd (fun p hp => ?_)).symm
  obtain ⟨_, _, _, cards, _, _, _, _, h4, _⟩ := mkCpd_ok_iff.1 h
  obtain ⟨n, _, hn⟩ := mapPy_mem h4 hp
  rw [hn, hc p hp n hn]

theorem exists_rank {g : Graph} (hw : g.WF) :
    ∃ h : Node → Nat, (∀ u v, g.Edge u v → h v < h u) ∧ ∀ v, h v ≤ g.nodes.length := by
  classical
  refine ⟨fun v => (g.nodes.filter (fun w => decide (g.Desc v w))).length, ?_, ?_⟩
  · intro u v huv
    have hv := (hw.edgeNodes u v huv).2
    have hsub : (v :: g.nodes.filter (fun w => decide (g.Desc v w))) ⊆
        g.nodes.filter (fun w => decide (g.Desc u w)) := by
      intro w hwm
      rcases List.mem_cons.1 hwm with rfl | hwm
      · simp only [List.mem_filter, decide_eq_true_eq]
        exact ⟨hv, TransGen.single huv⟩
      · simp only [List.mem_filter, decide_eq_true_eq] at hwm ⊢
        exact ⟨hwm.1, TransGen.head huv hwm.2⟩
    have hnd : (v :: g.nodes.filter (fun w => decide (g.Desc v w))).Nodup := by
      rw [List.nodup_cons]
      refine ⟨?_, hw.nodesNodup.filter _⟩
      simp only [List.mem_filter, decide_eq_true_eq, not_and]
      exact fun _ => hw.acyclic v
    have := length_le_of_nodup_subset hnd hsub
    simp only [List.length_cons] at this
    exact Nat.lt_of_succ_le this
  · intro v
    exact List.length_filter_le _ _

/-- induction along the edges of a DAG: parents first -/
theorem dag_induction {g : Graph} (hw : g.WF) {P : Node → Prop}
    (h : ∀ v, (∀ p, g.Edge p v → P p) → P v) (v : Node) : P v := by
  obtain ⟨r, hr, hb⟩ := exists_rank hw
  have : ∀ n v, g.nodes.length - r v ≤ n → P v := by
    intro n
    induction n with
    | zero =>
      intro v hv
      apply h
      intro p hp
      have := hr p v hp
      have := hb p
      have := hb v
      omega
    | succ n ih =>
      intro v hv
      apply h
      intro p hp
      apply ih
      have := hr p v hp
      have := hb p
      omega
  exact this _ v le_rfl

namespace Net

/-! ### fuel -/

theorem setLoop_congr {s s' : Net → Node → Rel → Net × Py Unit} {g : Graph}
    (hm : ∀ net v r, net.g = g → (s net v r).1.g = g)
    {cs : List Node} (h : ∀ net r, ∀ c ∈ cs, net.g = g → s net c r = s' net c r) {net : Net} (hg : net.g = g) :
    setLoop s net cs = setLoop s' net cs := by
  induction cs generalizing net with
  | nil => rfl
  | cons c cs ih =>
    have ih' := fun net hg => ih (fun net r c hc => h net r c (by simp [hc])) (net := net) hg
    unfold setLoop
    cases hr : net.rels.get? c with
    | none => simp only; exact ih' _ hg
    | some r =>
      simp only
      rw [← h net r c (by simp) hg]
      have := hm net c r hg
      generalize hs : s net c r = x
      obtain ⟨net', y⟩ := x
      rw [hs] at this
      cases y with
      | error e => rfl
      | ok u => exact ih' _ this

theorem setLoop_m {s : Net → Node → Rel → Net × Py Unit}
    (hm : ∀ net v r, (s net v r).1.m = net.m ∧ (s net v r).1.base = net.base)
    {cs : List Node} {net : Net} : (setLoop s net cs).1.m = net.m ∧ (setLoop s net cs).1.base = net.base := by
  induction cs generalizing net with
  | nil => exact ⟨rfl, rfl⟩
  | cons c cs ih =>
    unfold setLoop
    cases hr : net.rels.get? c with
    | none => simp only; exact ih
    | some r =>
      simp only
      have := hm net c r
      generalize hs : s net c r = x
      obtain ⟨net', y⟩ := x
      rw [hs] at this
      cases y with
      | error e => exact this
      | ok u =>
        obtain ⟨h1, h2⟩ := ih (net := net')
        exact ⟨h1.trans this.1, h2.trans this.2⟩

/-- assignments never change the graph, the roles or the class -/
theorem setItem_m (n : Nat) (net : Net) (v : Node) (r : Rel) :
    (setItem n net v r).1.m = net.m ∧ (setItem n net v r).1.base = net.base := by
  induction n generalizing net v r with
  | zero => exact ⟨rfl, rfl⟩
  | succ n ih =>
    unfold setItem
    simp only
    split
    · exact ⟨rfl, rfl⟩
    · exact ⟨rfl, rfl⟩
    · split
      · exact ⟨rfl, rfl⟩
      · split
        · exact ⟨rfl, rfl⟩
        · split
          · exact ⟨rfl, rfl⟩
          · exact setLoop_m ih

theorem set_m (net : Net) (v : Node) (r : Rel) :
    (net.set v r).1.m = net.m ∧ (net.set v r).1.base = net.base := setItem_m _ _ _ _

/-- The recursion never exhausts the fuel: any two amounts above the rank of the node agree. -/
theorem setItem_fuel {g : Graph} {h : Node → Nat} (hr : ∀ u v, g.Edge u v → h v < h u) :
    ∀ (n m : Nat) (net : Net) (v : Node) (r : Rel), net.g = g → h v < n → h v < m →
      setItem n net v r = setItem m net v r := by
  intro n
  induction n with
  | zero => intro m net v r _ h1; omega
  | succ n ih =>
    intro m net v r hg h1 h2
    cases m with
    | zero => omega
    | succ m =>
      unfold setItem
      simp only
      split
      · rfl
      · rfl
      · split
        · rfl
        · split
          · rfl
          · split
            · rfl
            · apply setLoop_congr (g := g) (fun net v r hg => by rw [← hg]; exact congrArg Macid.g (setItem_m n net v r).1)
              · intro net' r' c hc hg'
                have he : g.Edge v c := by rw [← hg]; exact Graph.mem_children.1 hc
                have := hr v c he
                exact ih m net' c r' hg' (by omega) (by omega)
              · exact hg

/-! ### the invariant -/

/-- `Inv net P`: outside the pending nodes `P` every CPD is up to date and every assigned node that
could have a CPD has one. -/
structure Inv (net : Net) (P : List Node) : Prop where
  cpd : ∀ v c, net.cpds.get? v = some c → net.domain.get? v = some c.domain ∧
    ∃ r, net.rels.get? v = some r ∧ (v ∉ P → computed net.g net.domain v r = .ok c)
  sat : ∀ v r, net.rels.get? v = some r → v ∉ P →
    (r.isTab = true ∨ ∀ p, net.g.Edge p v → ∃ d, net.domain.get? p = some d) →
    ∃ c, net.cpds.get? v = some c
  scope : ∀ v c, net.cpds.get? v = some c → c.var = v ∧ ∀ x ∈ c.var :: c.evidence, x ∈ net.g.nodes

theorem Inv.mono {net : Net} {P Q : List Node} (h : Inv net P) (hs : ∀ x, x ∈ P → x ∈ Q) : Inv net Q := by
  refine ⟨fun v c hv => ?_, fun v r hv hq => h.sat v r hv (fun hp => hq (hs v hp)), h.scope⟩
  obtain ⟨h1, r, h2, h3⟩ := h.cpd v c hv
  exact ⟨h1, r, h2, fun hq => h3 (fun hp => hq (hs v hp))⟩

theorem get?_append_single {V : Type} {d : Dict Node V} {v w : Node} {x : V} :
    Dict.get? (Dict.erase d v ++ [(v, x)]) w = if w = v then some x else d.get? w := by
  rw [get?_append, Dict.get?_erase]
  by_cases h : w = v
  · simp [h, Dict.get?]
  · simp [h, Ne.symm h, Dict.get?]

theorem computed_congr {g : Graph} {dom dom' : Dict Node (List Outcome)} {v : Node} {r : Rel}
    (h : ∀ p, g.Edge p v → dom.get? p = dom'.get? p) : computed g dom v r = computed g dom' v r := by
  have hd : ∀ p ∈ g.parents v, dom.get? p = dom'.get? p := fun p hp => h p (Graph.mem_parents.1 hp)
  have hc : ∀ p ∈ g.parents v, cardOf dom p = cardOf dom' p := fun p hp => by simp [cardOf, hd p hp]
  cases r with
  | tab c => rfl
  | func f => unfold computed; exact mkCpd_congr hd hc
  | dist d => unfold computed; exact mkCpd_congr hd hc
  | seq l => unfold computed; exact mkCpd_congr hd hc

theorem card_ok {net : Net} {p : Node} {n : Nat} (h : net.card p = .ok n) :
    ∃ c, net.cpds.get? p = some c ∧ n = c.domain.length := by
  unfold card getCpd at h
  split at h
  · simp at h
  · simp at h
  · rename_i c heq
    split at heq
    · simp only [Except.ok.injEq] at h heq
      exact ⟨c, heq, h.symm⟩
    · simp at heq

theorem toCpd_computed {net : Net} {v : Node} {r : Rel} {c : Cpd} (h : net.toCpd v r = .ok c)
    (hd : ∀ p pc, net.g.Edge p v → net.cpds.get? p = some pc → net.domain.get? p = some pc.domain) :
    computed net.g net.domain v r = .ok c := by
  have hcard : ∀ p ∈ net.g.parents v, ∀ n, net.card p = .ok n → cardOf net.domain p = .ok n := by
    intro p hp n hn
    obtain ⟨pc, h1, h2⟩ := card_ok hn
    simp [cardOf, hd p pc (Graph.mem_parents.1 hp) h1, h2]
  cases r with
  | tab c' => exact h
  | func f =>
    simp only [toCpd] at h
    split at h
    · exact mkCpd_ok_card h (fun _ _ => rfl) hcard
    · simp at h
  | dist d =>
    simp only [toCpd] at h
    split at h
    · exact mkCpd_ok_card h (fun _ _ => rfl) hcard
    · simp at h
  | seq l =>
    simp only [toCpd] at h
    split at h
    · exact mkCpd_ok_card h (fun _ _ => rfl) hcard
    · simp at h

theorem mkCpd_notReady {kind : CpdKind} {v : Node} {f : Func} {force : Option (List Outcome)}
    {ps : List Node} {dom : Dict Node (List Outcome)} {card : Node → Py Nat}
    (hf : ∀ pv, f pv ≠ .error .parentsNotReady) (hc : ∀ p, card p ≠ .error .parentsNotReady)
    (h : mkCpd kind v f force ps dom card = .error .parentsNotReady) :
    ∃ p ∈ ps, dom.get? p = none := by
  by_contra hcon
  push Not at hcon
  obtain ⟨ds, hds, _⟩ := mapPy_ok (f := domOf dom) (xs := ps) (fun p hp => by
    obtain ⟨d, hd⟩ := Option.ne_none_iff_exists'.1 (hcon p hp)
    exact ⟨d, domOf_ok.2 hd⟩)
  have hds' : parentDoms ps dom = .ok ds := hds
  have hsf : ∀ pv, stochasticFunction f pv ≠ .error .parentsNotReady := by
    intro pv
    unfold stochasticFunction
    cases hfp : f pv with
    | error e =>
      intro he
      simp only [Except.error.injEq] at he
      exact hf pv (by rw [hfp, he])
    | ok r => cases r <;> simp
  simp only [mkCpd, parentValues, hds'] at h
  split at h
  · rename_i e heq
    unfold possibleValues at heq
    split at heq
    · rename_i e' heq'
      obtain ⟨pv, _, hx⟩ := mapPy_error heq'
      simp only [Except.error.injEq] at heq h
      subst heq
      subst h
      exact hsf pv hx
    · simp at heq
  · split at h
    · rename_i e heq
      simp only [Except.error.injEq] at h
      subst h
      unfold chooseDomain at heq
      split at heq
      · split at heq <;> simp at heq
      · simp at heq
    · split at h
      · rename_i e heq
        obtain ⟨p, _, hx⟩ := mapPy_error heq
        simp only [Except.error.injEq] at h
        subst h
        exact hc p hx
      · split at h
        · rename_i e heq
          obtain ⟨pv, _, hx⟩ := mapPy_error heq
          simp only [Except.error.injEq] at h
          subst h
          unfold colFor at hx
          split at hx
          · rename_i e he
            simp only [Except.error.injEq] at hx
            subst hx
            exact hsf pv he
          · rename_i d he
            obtain ⟨col, hcol⟩ := column_total _ d
            rw [hcol] at hx
            simp at hx
        · split at h
          · simp at h
          · split at h
            · simp at h
            · split at h
              · simp at h
              · split at h <;> simp at h

theorem card_notReady (net : Net) (p : Node) : net.card p ≠ .error .parentsNotReady := by
  unfold card getCpd
  split
  · rename_i heq
    split at heq
    · simp at heq
    · simp only [Except.error.injEq] at heq
      subst heq
      simp
  · simp
  · simp

theorem toCpd_notReady {net : Net} {v : Node} {r : Rel} (hh : Honest r)
    (h : net.toCpd v r = .error .parentsNotReady) :
    r.isTab = false ∧ ∃ p, net.g.Edge p v ∧ net.domain.get? p = none := by
  cases r with
  | tab c => simp [toCpd] at h
  | func f =>
    simp only [toCpd] at h
    split at h
    · obtain ⟨p, hp, hd⟩ := mkCpd_notReady hh net.card_notReady h
      exact ⟨rfl, p, Graph.mem_parents.1 hp, hd⟩
    · simp at h
  | dist d =>
    simp only [toCpd] at h
    split at h
    · obtain ⟨p, hp, hd⟩ := mkCpd_notReady (by simp [constFunc]) net.card_notReady h
      exact ⟨rfl, p, Graph.mem_parents.1 hp, hd⟩
    · simp at h
  | seq l =>
    simp only [toCpd] at h
    split at h
    · obtain ⟨p, hp, hd⟩ := mkCpd_notReady (by simp [constFunc]) net.card_notReady h
      exact ⟨rfl, p, Graph.mem_parents.1 hp, hd⟩
    · simp at h

/-- all stored relationships are honest -/
def RelsHonest (net : Net) : Prop := ∀ v r, net.rels.get? v = some r → Honest r

theorem setLoop_inv {g : Graph} {s : Net → Node → Rel → Net × Py Unit}
    (hs : ∀ net net' P c r, net.g = g → Inv net (c :: P) → RelsHonest net → Honest r →
      net.rels.get? c = some r → s net c r = (net', .ok ()) → 
      net'.g = g ∧ Inv net' P ∧ RelsHonest net' ∧ (∀ x, x ∈ net.rels.keys → x ∈ net'.rels.keys))
    {cs : List Node} {net net' : Net} {P : List Node} (hg : net.g = g) (hi : Inv net (cs ++ P))
    (hh : RelsHonest net) (h : setLoop s net cs = (net', .ok ())) :
    net'.g = g ∧ Inv net' P ∧ RelsHonest net' ∧ (∀ x, x ∈ net.rels.keys → x ∈ net'.rels.keys) := by
  induction cs generalizing net with
  | nil =>
    simp only [setLoop, Prod.mk.injEq, and_true] at h
    subst h
    exact ⟨hg, hi, hh, fun x hx => hx⟩
  | cons c cs ih =>
    unfold setLoop at h
    cases hr : net.rels.get? c with
    | none =>
      simp only [hr] at h
      refine ih hg ?_ hh h
      refine ⟨fun v cc hv => ?_, fun v r hv hq hrd => ?_, hi.scope⟩
      · obtain ⟨h1, r, h2, h3⟩ := hi.cpd v cc hv
        refine ⟨h1, r, h2, fun hq => h3 ?_⟩
        intro hm
        rcases List.mem_cons.1 hm with rfl | hm
        · rw [hr] at h2
          simp at h2
        · exact hq hm
      · refine hi.sat v r hv ?_ hrd
        intro hm
        rcases List.mem_cons.1 hm with rfl | hm
        · rw [hr] at hv
          simp at hv
        · exact hq hm
    | some r =>
      simp only [hr] at h
      generalize hst : s net c r = x at h
      obtain ⟨net1, y⟩ := x
      cases y with
      | error e => simp at h
      | ok u =>
        obtain ⟨h1, h2, h3, h4⟩ := hs net net1 (cs ++ P) c r hg hi hh (hh c r hr) hr hst
        obtain ⟨k1, k2, k3, k4⟩ := ih h1 h2 h3 h
        exact ⟨k1, k2, k3, fun x hx => k4 x (h4 x hx)⟩

theorem setItem_inv {g : Graph} (hw : g.WF) : ∀ (n : Nat) (net net' : Net) (v : Node) (r : Rel) (P : List Node),
    net.g = g → Inv net (v :: P) → RelsHonest net → Honest r → setItem n net v r = (net', .ok ()) →
    net'.g = g ∧ Inv net' P ∧ RelsHonest net' ∧ (∀ x, x ∈ v :: net.rels.keys → x ∈ net'.rels.keys) := by
  intro n
  induction n with
  | zero => intro net net' v r P _ _ _ _ h; simp [setItem] at h
  | succ n ih =>
    intro net net' v r P hg hi hh hr h
    have hirr : ¬ g.Edge v v := fun he => hw.acyclic v (TransGen.single he)
    unfold setItem at h
    simp only at h
    generalize hn1 : ({ net with rels := net.rels.erase v ++ [(v, r)], cpds := net.cpds.erase v } : Net) = net1 at h
    have hg1 : net1.g = g := by rw [← hn1]; exact hg
    have hrel1 : ∀ w, net1.rels.get? w = if w = v then some r else net.rels.get? w := by
      intro w; rw [← hn1]; exact get?_append_single
    have hcpd1 : ∀ w, net1.cpds.get? w = if w = v then none else net.cpds.get? w := by
      intro w
      rw [← hn1]
      show Dict.get? (Dict.erase net.cpds v) w = _
      rw [Dict.get?_erase]
    have hdom1 : net1.domain = net.domain := by rw [← hn1]
    have hh1 : RelsHonest net1 := by
      intro w r' hw'
      rw [hrel1] at hw'
      split at hw'
      · simp only [Option.some.injEq] at hw'; exact hw' ▸ hr
      · exact hh w r' hw'
    have hk1 : ∀ x, x ∈ v :: net.rels.keys → x ∈ net1.rels.keys := by
      intro x hx
      rw [Dict.mem_keys, hrel1]
      by_cases hxv : x = v
      · exact ⟨r, by simp [hxv]⟩
      · rcases List.mem_cons.1 hx with hx | hx
        · exact absurd hx hxv
        · obtain ⟨y, hy⟩ := Dict.mem_keys.1 hx
          exact ⟨y, by simp [hxv, hy]⟩
    have hInvN : ∀ w c, w ≠ v → net.cpds.get? w = some c → w ∉ P → ∃ r, net.rels.get? w = some r ∧
        computed g net.domain w r = .ok c := by
      intro w c hwv hc hp
      obtain ⟨h1, r', h2, h3⟩ := hi.cpd w c hc
      exact ⟨r', h2, by rw [← hg]; exact h3 (by simp [hwv, hp])⟩
    cases ht : net1.toCpd v r with
    | error e =>
      rw [ht] at h
      by_cases he : e = .parentsNotReady
      · subst he
        simp only [Prod.mk.injEq, and_true] at h
        subst h
        refine ⟨hg1, ⟨fun w c hc => ?_, fun w r' hr' hp hrd => ?_, fun w c hc => ?_⟩, hh1, hk1⟩
        · rw [hcpd1] at hc
          split at hc
          · simp at hc
          · rename_i hwv
            obtain ⟨h1, r', h2, h3⟩ := hi.cpd w c hc
            refine ⟨by rw [hdom1]; exact h1, r', by rw [hrel1]; simp [hwv, h2], fun hp => ?_⟩
            rw [hg1, hdom1, ← hg]
            exact h3 (by simp [hwv, hp])
        · by_cases hwv : w = v
          · subst hwv
            rw [hrel1] at hr'
            simp only [if_true, Option.some.injEq] at hr'
            subst hr'
            obtain ⟨hnt, p, hp1, hp2⟩ := toCpd_notReady hr ht
            rcases hrd with hrd | hrd
            · rw [hnt] at hrd; simp at hrd
            · obtain ⟨d, hd⟩ := hrd p hp1
              rw [hp2] at hd
              simp at hd
          · rw [hrel1] at hr'
            simp only [hwv, if_false] at hr'
            rw [hcpd1]
            simp only [hwv, if_false]
            refine hi.sat w r' hr' (by simp [hwv, hp]) ?_
            rw [hg, ← hg1, ← hdom1]
            exact hrd
        · rw [hcpd1] at hc
          split at hc
          · simp at hc
          · rw [hg1, ← hg]
            exact hi.scope w c hc
      · cases e <;> simp at h he
    | ok c =>
      simp only [ht] at h
      split at h
      · simp at h
      · split at h
        · simp at h
        · rename_i hsc hvar
          simp only [ne_eq, Decidable.not_not] at hvar
          have hcomp : computed g net.domain v r = .ok c := by
            have := toCpd_computed ht (fun p pc hp hpc => by
              rw [hcpd1] at hpc
              split at hpc
              · simp at hpc
              · rw [hdom1]
                exact (hi.cpd p pc hpc).1)
            rw [hg1, hdom1] at this
            exact this
          generalize hn3 : ({ net with rels := net.rels.erase v ++ [(v, r)], cpds := (net.cpds.erase v).set c.var c, domain := net.domain.set v c.domain } : Net) = net3 at h
          have hg3 : net3.g = g := by rw [← hn3]; exact hg
          have hrel3 : net3.rels = net1.rels := by rw [← hn3, ← hn1]
          have hcpd3 : ∀ w, net3.cpds.get? w = if w = v then some c else net.cpds.get? w := by
            intro w
            rw [← hn3]
            have h1 := hcpd1 w
            rw [← hn1] at h1
            change Dict.get? (Dict.set (net.cpds.erase v) c.var c) w = _
            rw [Dict.get?_set, hvar, h1]
            by_cases hwv : w = v
            · simp [hwv]
            · simp [hwv]
          have hdom3 : ∀ w, net3.domain.get? w = if w = v then some c.domain else net.domain.get? w := by
            intro w
            rw [← hn3]
            change Dict.get? (Dict.set net.domain v c.domain) w = _
            rw [Dict.get?_set]
          have hh3 : RelsHonest net3 := by intro w r' h'; rw [hrel3] at h'; exact hh1 w r' h'
          have hk3 : ∀ x, x ∈ v :: net.rels.keys → x ∈ net3.rels.keys := by rw [hrel3]; exact hk1
          have hcompv : computed g net3.domain v r = .ok c := by
            rw [← hcomp]
            refine computed_congr (fun p hp => ?_)
            have hpv : p ≠ v := fun h' => hirr (h' ▸ hp)
            rw [hdom3]
            simp [hpv]
          have base : Inv net3 (g.children v ++ P) := by
            refine ⟨fun w cc hc => ?_, fun w r' hr' hp hrd => ?_, fun w cc hc => ?_⟩
            rotate_left 2
            · rw [hcpd3] at hc
              rw [hg3, ← hg]
              split at hc
              · rename_i hwv
                simp only [Option.some.injEq] at hc
                subst hc
                refine ⟨hvar.trans hwv.symm, ?_⟩
                simpa using hsc
              · exact hi.scope w cc hc
            · rw [hcpd3] at hc
              split at hc
              · rename_i hwv
                simp only [Option.some.injEq] at hc
                subst hc
                subst hwv
                refine ⟨by rw [hdom3]; simp, r, by rw [hrel3, hrel1]; simp, fun _ => ?_⟩
                rw [hg3]
                exact hcompv
              · rename_i hwv
                obtain ⟨h1, r', h2, h3⟩ := hi.cpd w cc hc
                refine ⟨by rw [hdom3]; simp [hwv, h1], r', by rw [hrel3, hrel1]; simp [hwv, h2], fun hp => ?_⟩
                rw [List.mem_append, not_or] at hp
                rw [hg3]
                have h3' := h3 (by simp [hwv, hp.2])
                rw [hg] at h3'
                rw [← h3']
                refine computed_congr (fun p hpe => ?_)
                have hpv : p ≠ v := fun h' => hp.1 (Graph.mem_children.2 (h' ▸ hpe))
                rw [hdom3]
                simp [hpv]
            · by_cases hwv : w = v
              · subst hwv
                exact ⟨c, by rw [hcpd3]; simp⟩
              · rw [hrel3, hrel1] at hr'
                simp only [hwv, if_false] at hr'
                rw [hcpd3]
                simp only [hwv, if_false]
                rw [List.mem_append, not_or] at hp
                refine hi.sat w r' hr' (by simp [hwv, hp.2]) (hrd.imp_right (fun hrd p hpe => ?_))
                rw [hg] at hpe
                rw [hg3] at hrd
                obtain ⟨d, hd⟩ := hrd p hpe
                have hpv : p ≠ v := fun h' => hp.1 (Graph.mem_children.2 (h' ▸ hpe))
                rw [hdom3] at hd
                simp only [hpv, if_false] at hd
                exact ⟨d, hd⟩
          split at h
          · rename_i hsame
            simp only [Prod.mk.injEq, and_true] at h
            subst h
            have hold : net.domain.get? v = some c.domain := hsame.2
            have hdeq : ∀ w, net3.domain.get? w = net.domain.get? w := by
              intro w
              rw [hdom3]
              split
              · rename_i hwv; rw [hwv, hold]
              · rfl
            refine ⟨hg3, ⟨fun w cc hc => ?_, fun w r' hr' hp hrd => ?_, base.scope⟩, hh3, hk3⟩
            · obtain ⟨h1, r', h2, _⟩ := base.cpd w cc hc
              refine ⟨h1, r', h2, fun hp => ?_⟩
              rw [hg3]
              rw [hcpd3] at hc
              split at hc
              · rename_i hwv
                subst hwv
                simp only [Option.some.injEq] at hc
                subst hc
                rw [hrel3, hrel1] at h2
                simp only [if_true, Option.some.injEq] at h2
                subst h2
                exact hcompv
              · rename_i hwv
                obtain ⟨r'', k2, k3⟩ := hInvN w cc hwv hc hp
                rw [hrel3, hrel1] at h2
                simp only [hwv, if_false] at h2
                rw [k2] at h2
                simp only [Option.some.injEq] at h2
                subst h2
                rw [← k3]
                exact computed_congr (fun p _ => hdeq p)
            · by_cases hwv : w = v
              · subst hwv
                exact ⟨c, by rw [hcpd3]; simp⟩
              · rw [hrel3, hrel1] at hr'
                simp only [hwv, if_false] at hr'
                rw [hcpd3]
                simp only [hwv, if_false]
                refine hi.sat w r' hr' (by simp [hwv, hp]) (hrd.imp_right (fun hrd p hpe => ?_))
                rw [hg] at hpe
                rw [hg3] at hrd
                rw [← hdeq]
                exact hrd p hpe
          · have hg' : net.g.children v = g.children v := by rw [hg]
            rw [hg'] at h
            obtain ⟨k1, k2, k3, k4⟩ := setLoop_inv (g := g) (s := setItem n) (P := P)
              (fun net net' P c r a1 a2 a3 a4 _ a5 => by
                obtain ⟨b1, b2, b3, b4⟩ := ih net net' c r P a1 a2 a3 a4 a5
                exact ⟨b1, b2, b3, fun x hx => b4 x (by simp [hx])⟩) hg3 base hh3 h
            exact ⟨k1, k2, k3, fun x hx => k4 x (hk3 x hx)⟩

/-! ### one assignment, case by case -/

/-- the network after the old entry of `v` has been dropped and the new relationship stored -/
def stage (net : Net) (v : Node) (r : Rel) : Net :=
  { net with rels := net.rels.erase v ++ [(v, r)], cpds := net.cpds.erase v }

/-- the network after the new CPD has been stored -/
def put (net : Net) (v : Node) (r : Rel) (c : Cpd) : Net :=
  { net with rels := net.rels.erase v ++ [(v, r)], cpds := (net.cpds.erase v).set v c,
             domain := net.domain.set v c.domain }

theorem stage_g (net : Net) (v : Node) (r : Rel) : (stage net v r).g = net.g := rfl
theorem put_g (net : Net) (v : Node) (r : Rel) (c : Cpd) : (put net v r c).g = net.g := rfl
theorem stage_rels (net : Net) (v : Node) (r : Rel) (w : Node) :
    (stage net v r).rels.get? w = if w = v then some r else net.rels.get? w := get?_append_single
theorem put_rels (net : Net) (v : Node) (r : Rel) (c : Cpd) (w : Node) :
    (put net v r c).rels.get? w = if w = v then some r else net.rels.get? w := get?_append_single
theorem stage_cpds (net : Net) (v : Node) (r : Rel) (w : Node) :
    (stage net v r).cpds.get? w = if w = v then none else net.cpds.get? w := Dict.get?_erase _ _ _
theorem stage_domain (net : Net) (v : Node) (r : Rel) : (stage net v r).domain = net.domain := rfl
theorem put_cpds (net : Net) (v : Node) (r : Rel) (c : Cpd) (w : Node) :
    (put net v r c).cpds.get? w = if w = v then some c else net.cpds.get? w := by
  show Dict.get? (Dict.set (Dict.erase net.cpds v) v c) w = _
  rw [Dict.get?_set, Dict.get?_erase]
  by_cases hwv : w = v
  · simp [hwv]
  · simp [hwv]
theorem put_domain (net : Net) (v : Node) (r : Rel) (c : Cpd) (w : Node) :
    (put net v r c).domain.get? w = if w = v then some c.domain else net.domain.get? w :=
  Dict.get?_set _ _ _ _

theorem setItem_cases (n : Nat) (net : Net) (v : Node) (r : Rel) :
    ((stage net v r).toCpd v r = .error .parentsNotReady ∧
      setItem (n + 1) net v r = (stage net v r, .ok ())) ∨
    (∃ e, e ≠ .parentsNotReady ∧ (stage net v r).toCpd v r = .error e ∧
      setItem (n + 1) net v r = (stage net v r, .error e)) ∨
    (∃ c, (stage net v r).toCpd v r = .ok c ∧
      ((¬ (∀ x ∈ c.var :: c.evidence, x ∈ net.g.nodes) ∧
          setItem (n + 1) net v r = (stage net v r, .error .value)) ∨
       ((∀ x ∈ c.var :: c.evidence, x ∈ net.g.nodes) ∧ c.var ≠ v ∧
          setItem (n + 1) net v r = ({ stage net v r with cpds := (net.cpds.erase v).set c.var c }, .error .key)) ∨
       ((∀ x ∈ c.var :: c.evidence, x ∈ net.g.nodes) ∧ c.var = v ∧ c.domain ≠ [] ∧
          net.domain.get? v = some c.domain ∧ setItem (n + 1) net v r = (put net v r c, .ok ())) ∨
       ((∀ x ∈ c.var :: c.evidence, x ∈ net.g.nodes) ∧ c.var = v ∧
          ¬ (c.domain ≠ [] ∧ net.domain.get? v = some c.domain) ∧
          setItem (n + 1) net v r = setLoop (setItem n) (put net v r c) (net.g.children v)))) := by
  cases ht : (stage net v r).toCpd v r with
  | error e =>
    have ht' := ht
    unfold stage at ht'
    by_cases he : e = .parentsNotReady
    · subst he
      left
      refine ⟨rfl, ?_⟩
      unfold setItem
      simp only [ht']
      rfl
    · right; left
      refine ⟨e, he, rfl, ?_⟩
      unfold setItem
      simp only [ht']
      cases e <;> rfl
  | ok c =>
    have ht' := ht
    unfold stage at ht'
    right; right
    refine ⟨c, rfl, ?_⟩
    by_cases hs : ∀ x ∈ c.var :: c.evidence, x ∈ net.g.nodes
    · have hs' : ¬ ((c.var :: c.evidence).all (fun x => decide (x ∈ net.g.nodes)) = false) := by
        simp only [Bool.not_eq_false, List.all_eq_true, decide_eq_true_eq]
        exact hs
      right
      by_cases hv : c.var = v
      · by_cases hd : c.domain ≠ [] ∧ net.domain.get? v = some c.domain
        · right; left
          refine ⟨hs, hv, hd.1, hd.2, ?_⟩
          unfold setItem
          rw [hv] at hs'
          simp only [ht', hv, ne_eq, not_true_eq_false, if_false]
          rw [if_neg hs', if_pos hd]
          rfl
        · right; right
          refine ⟨hs, hv, hd, ?_⟩
          conv_lhs => unfold setItem
          rw [hv] at hs'
          simp only [ht', hv, ne_eq, not_true_eq_false, if_false]
          rw [if_neg hs', if_neg hd]
          rfl
      · left
        refine ⟨hs, hv, ?_⟩
        unfold setItem
        simp only [ht', if_neg hs', ne_eq, hv, not_false_eq_true, if_true]
        rfl
    · left
      have hs' : (c.var :: c.evidence).all (fun x => decide (x ∈ net.g.nodes)) = false := by
        rw [← Bool.not_eq_true, List.all_eq_true]
        simpa using hs
      refine ⟨hs, ?_⟩
      unfold setItem
      simp only [ht', hs', if_true]
      rfl

theorem setLoop_rels {s : Net → Node → Rel → Net × Py Unit}
    (hs : ∀ net c r w, (s net c r).1.rels.get? w = if w = c then some r else net.rels.get? w)
    {cs : List Node} {net : Net} (w : Node) : (setLoop s net cs).1.rels.get? w = net.rels.get? w := by
  induction cs generalizing net with
  | nil => rfl
  | cons c cs ih =>
    unfold setLoop
    cases hr : net.rels.get? c with
    | none => simp only; exact ih
    | some r =>
      simp only
      have := hs net c r w
      generalize hst : s net c r = x at this
      obtain ⟨net', y⟩ := x
      have h2 : net'.rels.get? w = net.rels.get? w := by
        rw [this]
        split
        · rename_i h; rw [h, hr]
        · rfl
      cases y with
      | error e => exact h2
      | ok u => exact ih.trans h2

/-- the relationships after an assignment, whether it succeeds or not -/
theorem setItem_rels (n : Nat) (net : Net) (v : Node) (r : Rel) (w : Node) :
    (setItem (n + 1) net v r).1.rels.get? w = if w = v then some r else net.rels.get? w := by
  induction n generalizing net v r w with
  | zero =>
    rcases setItem_cases 0 net v r with ⟨_, h⟩ | ⟨e, _, _, h⟩ | ⟨c, _, ⟨_, h⟩ | ⟨_, _, h⟩ | ⟨_, _, _, _, h⟩ | ⟨_, _, _, h⟩⟩
    all_goals rw [h]
    · exact stage_rels _ _ _ _
    · exact stage_rels _ _ _ _
    · exact stage_rels _ _ _ _
    · exact stage_rels _ _ _ _
    · exact put_rels _ _ _ _ _
    · cases hc : net.g.children v with
      | nil => exact put_rels _ _ _ _ _
      | cons x xs =>
        rw [← hc]
        clear hc h
        generalize net.g.children v = cs
        rw [← put_rels net v r c w]
        generalize put net v r c = net'
        induction cs generalizing net' with
        | nil => rfl
        | cons y ys ih =>
          unfold setLoop
          cases hr : net'.rels.get? y with
          | none => exact ih _
          | some r => rfl
  | succ n ih =>
    rcases setItem_cases (n + 1) net v r with ⟨_, h⟩ | ⟨e, _, _, h⟩ | ⟨c, _, ⟨_, h⟩ | ⟨_, _, h⟩ | ⟨_, _, _, _, h⟩ | ⟨_, _, _, h⟩⟩
    all_goals rw [h]
    · exact stage_rels _ _ _ _
    · exact stage_rels _ _ _ _
    · exact stage_rels _ _ _ _
    · exact stage_rels _ _ _ _
    · exact put_rels _ _ _ _ _
    · rw [setLoop_rels ih]
      exact put_rels _ _ _ _ _

theorem set_rels (net : Net) (v : Node) (r : Rel) (w : Node) :
    (net.set v r).1.rels.get? w = if w = v then some r else net.rels.get? w := setItem_rels _ _ _ _ _

/-! ### only assigned nodes have domains -/

/-- no domain survives without its CPD -/
structure Tight (net : Net) : Prop where
  nostale : ∀ v, net.cpds.get? v = none → net.domain.get? v = none
  src : ∀ v d, net.domain.get? v = some d → ∃ r, net.rels.get? v = some r ∧
    (r.isTab = true ∨ ∀ p, net.g.Edge p v → ∃ d, net.domain.get? p = some d)

theorem toCpd_ok_doms {net : Net} {v : Node} {r : Rel} {c : Cpd} (h : net.toCpd v r = .ok c) :
    r.isTab = true ∨ ∀ p, net.g.Edge p v → ∃ d, net.domain.get? p = some d := by
  have key : ∀ {kind f force}, mkCpd kind v f force (net.g.parents v) net.domain net.card = .ok c →
      ∀ p, net.g.Edge p v → ∃ d, net.domain.get? p = some d := by
    intro kind f force hm p hp
    obtain ⟨doms, _, _, _, _, h1, _⟩ := mkCpd_ok_iff.1 hm
    obtain ⟨d, _, hd⟩ := mapPy_mem h1 (Graph.mem_parents.2 hp)
    exact ⟨d, domOf_ok.1 hd⟩
  cases r with
  | tab c' => exact Or.inl rfl
  | func f =>
    simp only [toCpd] at h
    split at h
    · exact Or.inr (key h)
    · simp at h
  | dist d =>
    simp only [toCpd] at h
    split at h
    · exact Or.inr (key h)
    · simp at h
  | seq l =>
    simp only [toCpd] at h
    split at h
    · exact Or.inr (key h)
    · simp at h

theorem setLoop_tight {s : Net → Node → Rel → Net × Py Unit}
    (hs : ∀ net net' c r, Tight net → RelsHonest net → net.rels.get? c = some r →
      s net c r = (net', .ok ()) → Tight net' ∧ RelsHonest net')
    {cs : List Node} {net net' : Net} (ht : Tight net) (hh : RelsHonest net)
    (h : setLoop s net cs = (net', .ok ())) : Tight net' ∧ RelsHonest net' := by
  induction cs generalizing net with
  | nil =>
    simp only [setLoop, Prod.mk.injEq, and_true] at h
    exact h ▸ ⟨ht, hh⟩
  | cons c cs ih =>
    unfold setLoop at h
    cases hr : net.rels.get? c with
    | none => simp only [hr] at h; exact ih ht hh h
    | some r =>
      simp only [hr] at h
      generalize hst : s net c r = x at h
      obtain ⟨net1, y⟩ := x
      cases y with
      | error e => simp at h
      | ok u =>
        obtain ⟨h1, h2⟩ := hs net net1 c r ht hh hr hst
        exact ih h1 h2 h

theorem relsHonest_of {net net' : Net} {v : Node} {r : Rel} (hh : RelsHonest net) (hr : Honest r)
    (h : ∀ w, net'.rels.get? w = if w = v then some r else net.rels.get? w) : RelsHonest net' := by
  intro w r' h'
  rw [h] at h'
  split at h'
  · simp only [Option.some.injEq] at h'; exact h' ▸ hr
  · exact hh w r' h'

theorem setItem_tight {g : Graph} (hw : g.WF) : ∀ (n : Nat) (net net' : Net) (v : Node) (r : Rel), net.g = g →
    Tight net → RelsHonest net → Honest r → (net.rels.get? v = some r ∨ net.rels.get? v = none) →
    setItem n net v r = (net', .ok ()) → Tight net' ∧ RelsHonest net' := by
  intro n
  induction n with
  | zero => intro net net' v r _ _ _ _ _ h; simp [setItem] at h
  | succ n ih =>
    intro net net' v r hg ht hh hr hv h
    have hirr : ¬ g.Edge v v := fun he => hw.acyclic v (TransGen.single he)
    have hputT : ∀ c, (stage net v r).toCpd v r = .ok c → Tight (put net v r c) := by
      intro c hc
      refine ⟨fun w hcw => ?_, fun w d hd => ?_⟩
      · rw [put_cpds] at hcw
        split at hcw
        · simp at hcw
        · rename_i hwv
          rw [put_domain]
          simp only [hwv, if_false]
          exact ht.nostale w hcw
      · rw [put_domain] at hd
        have grow : ∀ p d, net.domain.get? p = some d → ∃ d, (put net v r c).domain.get? p = some d := by
          intro p d hp
          rw [put_domain]
          split
          · exact ⟨_, rfl⟩
          · exact ⟨_, hp⟩
        split at hd
        · rename_i hwv
          subst hwv
          refine ⟨r, by rw [put_rels]; simp, (toCpd_ok_doms hc).imp_right (fun h' p hp => ?_)⟩
          obtain ⟨d', hd'⟩ := h' p hp
          exact grow p d' hd'
        · rename_i hwv
          obtain ⟨r', h1, h2⟩ := ht.src w d hd
          refine ⟨r', by rw [put_rels]; simp [hwv, h1], h2.imp_right (fun h' p hp => ?_)⟩
          obtain ⟨d', hd'⟩ := h' p hp
          exact grow p d' hd'
    rcases setItem_cases n net v r with ⟨h1, h2⟩ | ⟨e, _, _, h2⟩ | ⟨c, hc, ⟨_, h2⟩ | ⟨_, _, h2⟩ | ⟨_, _, _, _, h2⟩ | ⟨_, _, _, h2⟩⟩
    all_goals rw [h2] at h
    · simp only [Prod.mk.injEq, and_true] at h
      subst h
      obtain ⟨hnt, p, hp1, hp2⟩ := toCpd_notReady hr h1
      have hnone : net.domain.get? v = none := by
        by_contra hcon
        obtain ⟨d, hd⟩ := Option.ne_none_iff_exists'.1 hcon
        obtain ⟨r', h3, h4⟩ := ht.src v d hd
        rcases hv with hv | hv
        · rw [hv] at h3
          simp only [Option.some.injEq] at h3
          subst h3
          rcases h4 with h4 | h4
          · rw [hnt] at h4; simp at h4
          · obtain ⟨d', hd'⟩ := h4 p hp1
            rw [stage_domain, hd'] at hp2
            simp at hp2
        · rw [hv] at h3
          simp at h3
      refine ⟨⟨fun w hcw => ?_, fun w d hd => ?_⟩, relsHonest_of hh hr (stage_rels net v r)⟩
      · rw [stage_domain]
        by_cases hwv : w = v
        · rw [hwv, hnone]
        · rw [stage_cpds] at hcw
          simp only [hwv, if_false] at hcw
          exact ht.nostale w hcw
      · rw [stage_domain] at hd
        have hwv : w ≠ v := fun h' => by rw [h', hnone] at hd; simp at hd
        obtain ⟨r', h3, h4⟩ := ht.src w d hd
        exact ⟨r', by rw [stage_rels]; simp [hwv, h3], h4⟩
    · simp at h
    · simp at h
    · simp at h
    · simp only [Prod.mk.injEq, and_true] at h
      subst h
      exact ⟨hputT c hc, relsHonest_of hh hr (put_rels net v r c)⟩
    · have hgg : (put net v r c).g = g := hg
      have : ∀ cs (N : Net), N.g = g → Tight N → RelsHonest N → setLoop (setItem n) N cs = (net', .ok ()) →
          Tight net' ∧ RelsHonest net' := by
        intro cs
        induction cs with
        | nil =>
          intro N _ h1 h2 h3
          simp only [setLoop, Prod.mk.injEq, and_true] at h3
          exact h3 ▸ ⟨h1, h2⟩
        | cons x xs ihx =>
          intro N hN h1 h2 h3
          unfold setLoop at h3
          cases hrx : N.rels.get? x with
          | none => simp only [hrx] at h3; exact ihx N hN h1 h2 h3
          | some rx =>
            simp only [hrx] at h3
            generalize hst : setItem n N x rx = y at h3
            obtain ⟨N1, yy⟩ := y
            cases yy with
            | error e => simp at h3
            | ok u =>
              obtain ⟨k1, k2⟩ := ih N N1 x rx hN h1 h2 (h2 x rx hrx) (Or.inl hrx) hst
              have hN1 : N1.g = g := by
                have := (setItem_m n N x rx).1
                rw [hst] at this
                exact (congrArg Macid.g this).trans hN
              exact ihx N1 hN1 k1 k2 h3
      exact this _ _ hgg (hputT c hc) (relsHonest_of hh hr (put_rels net v r c)) h

/-! ### the solution determines the outcome of every order -/

/-- `sol` is the CPD assignment determined by the relationships `rel`; `D` lists its domains. -/
structure Sol (g : Graph) (rel : Node → Option Rel) (sol : Node → Option Cpd)
    (D : Dict Node (List Outcome)) : Prop where
  dom : ∀ v, D.get? v = (sol v).map Cpd.domain
  cpd : ∀ v c, sol v = some c → ∃ r, rel v = some r ∧ computed g D v r = .ok c
  scope : ∀ v c, sol v = some c → c.var = v ∧ ∀ x ∈ c.var :: c.evidence, x ∈ g.nodes
  sat : ∀ v r, rel v = some r → (r.isTab = true ∨ ∀ p, g.Edge p v → ∃ c, sol p = some c) → ∃ c, sol v = some c
  nodes : ∀ v r, rel v = some r → v ∈ g.nodes

/-- a partial run towards the solution -/
structure Run (g : Graph) (rel : Node → Option Rel) (sol : Node → Option Cpd) (net : Net) : Prop where
  g_eq : net.g = g
  cpd : ∀ v c, net.cpds.get? v = some c → sol v = some c ∧ net.domain.get? v = some c.domain ∧
    ∃ r, net.rels.get? v = some r ∧ (r.isTab = true ∨ ∀ p, g.Edge p v → ∃ c, net.cpds.get? p = some c)
  none : ∀ v, net.cpds.get? v = none → net.domain.get? v = none
  rels : ∀ v r, net.rels.get? v = some r → rel v = some r

/-- assigned nodes that could have a CPD have one, except pending ones -/
def Sat (g : Graph) (net : Net) (P : List Node) : Prop :=
  ∀ v r, net.rels.get? v = some r → v ∉ P →
    (r.isTab = true ∨ ∀ p, g.Edge p v → ∃ c, net.cpds.get? p = some c) → ∃ c, net.cpds.get? v = some c

theorem toCpd_of_ready {g : Graph} {D : Dict Node (List Outcome)} {net : Net} {v : Node} {r : Rel} {c : Cpd}
    (hg : net.g = g) (hv : v ∈ g.nodes) (hc : computed g D v r = .ok c)
    (h : r.isTab = true ∨ ∀ p, g.Edge p v → ∃ pc, net.cpds.get? p = some pc ∧ net.domain.get? p = some pc.domain ∧
      D.get? p = some pc.domain) (hn : ∀ p, g.Edge p v → p ∈ g.nodes) : net.toCpd v r = .ok c := by
  subst hg
  have hd : r.isTab = false → ∀ p ∈ net.g.parents v, D.get? p = net.domain.get? p := by
    intro ht p hp
    rcases h with h | h
    · rw [ht] at h; simp at h
    · obtain ⟨pc, _, h2, h3⟩ := h p (Graph.mem_parents.1 hp)
      rw [h2, h3]
  have hcd : r.isTab = false → ∀ p ∈ net.g.parents v, cardOf D p = net.card p := by
    intro ht p hp
    rcases h with h | h
    · rw [ht] at h; simp at h
    · obtain ⟨pc, h1, h2, h3⟩ := h p (Graph.mem_parents.1 hp)
      simp [cardOf, card, getCpd, h1, h3, hn p (Graph.mem_parents.1 hp)]
  cases r with
  | tab c' => exact hc
  | func f => simp only [toCpd, hv, if_true]; rw [← mkCpd_congr (hd rfl) (hcd rfl)]; exact hc
  | dist d => simp only [toCpd, hv, if_true]; rw [← mkCpd_congr (hd rfl) (hcd rfl)]; exact hc
  | seq l => simp only [toCpd, hv, if_true]; rw [← mkCpd_congr (hd rfl) (hcd rfl)]; exact hc

theorem mkCpd_notReady_of {kind : CpdKind} {v : Node} {f : Func} {force : Option (List Outcome)}
    {ps : List Node} {dom : Dict Node (List Outcome)} {card : Node → Py Nat} {p : Node}
    (hp : p ∈ ps) (hd : dom.get? p = none) :
    mkCpd kind v f force ps dom card = .error .parentsNotReady := by
  have h1 : parentDoms ps dom = .error .parentsNotReady := parentDoms_err hp hd
  simp only [mkCpd, parentValues, h1]

theorem toCpd_of_notReady {net : Net} {v p : Node} {r : Rel} (hv : v ∈ net.g.nodes)
    (ht : r.isTab = false) (hp : net.g.Edge p v) (hd : net.domain.get? p = none) :
    net.toCpd v r = .error .parentsNotReady := by
  have hp' := Graph.mem_parents.2 hp
  cases r with
  | tab c => simp [Rel.isTab] at ht
  | func f => simp only [toCpd, hv, if_true]; exact mkCpd_notReady_of hp' hd
  | dist d => simp only [toCpd, hv, if_true]; exact mkCpd_notReady_of hp' hd
  | seq l => simp only [toCpd, hv, if_true]; exact mkCpd_notReady_of hp' hd

theorem setItem_run {g : Graph} (hw : g.WF) {rel : Node → Option Rel} {sol : Node → Option Cpd}
    {D : Dict Node (List Outcome)} (hS : Sol g rel sol D) {h : Node → Nat}
    (hr : ∀ u v, g.Edge u v → h v < h u) :
    ∀ (n : Nat) (net : Net) (v : Node) (r : Rel) (P : List Node), h v < n → Run g rel sol net →
      rel v = some r → Sat g net (v :: P) →
      ∃ net', setItem n net v r = (net', .ok ()) ∧ Run g rel sol net' ∧ Sat g net' P := by
  intro n
  induction n with
  | zero => intro net v r P h1; omega
  | succ n ih =>
    intro net v r P hn hR hrel hsat
    have hirr : ¬ g.Edge v v := fun he => hw.acyclic v (TransGen.single he)
    have hgs : (stage net v r).g = g := hR.g_eq
    have hgp : ∀ c, (put net v r c).g = g := fun _ => hR.g_eq
    have hvn : v ∈ g.nodes := hS.nodes v r hrel
    by_cases hready : r.isTab = true ∨ ∀ p, g.Edge p v → ∃ c, net.cpds.get? p = some c
    · -- ready
      obtain ⟨c, hc⟩ := hS.sat v r hrel (hready.imp_right (fun h' p hp => by
        obtain ⟨pc, hpc⟩ := h' p hp
        exact ⟨pc, (hR.cpd p pc hpc).1⟩))
      obtain ⟨r', hr', hcomp⟩ := hS.cpd v c hc
      rw [hrel] at hr'
      simp only [Option.some.injEq] at hr'
      subst hr'
      obtain ⟨hvar, hscope⟩ := hS.scope v c hc
      have ht : (stage net v r).toCpd v r = .ok c := by
        refine toCpd_of_ready hgs hvn hcomp (hready.imp_right (fun h' p hp => ?_)) (fun p hp => (hw.edgeNodes p v hp).1)
        obtain ⟨pc, hpc⟩ := h' p hp
        have hpv : p ≠ v := fun h' => hirr (h' ▸ hp)
        obtain ⟨k1, k2, _⟩ := hR.cpd p pc hpc
        refine ⟨pc, by rw [stage_cpds]; simp [hpv, hpc], k2, by rw [hS.dom, k1]; rfl⟩
      have hRp : Run g rel sol (put net v r c) := by
        refine ⟨hgp c, fun w cw hcw => ?_, fun w hcw => ?_, fun w rw' hrw => ?_⟩
        · have grow : ∀ p pc, net.cpds.get? p = some pc → ∃ pc, (put net v r c).cpds.get? p = some pc := by
            intro p pc hp
            rw [put_cpds]
            split
            · exact ⟨_, rfl⟩
            · exact ⟨_, hp⟩
          rw [put_cpds] at hcw
          rw [put_domain, put_rels]
          split at hcw
          · rename_i hwv
            simp only [Option.some.injEq] at hcw
            subst hcw
            subst hwv
            refine ⟨hc, by simp, r, by simp, hready.imp_right (fun h' p hp => ?_)⟩
            obtain ⟨pc, hpc⟩ := h' p hp
            exact grow p pc hpc
          · rename_i hwv
            obtain ⟨k1, k2, r', k3, k4⟩ := hR.cpd w cw hcw
            refine ⟨k1, by simp [hwv, k2], r', by simp [hwv, k3], k4.imp_right (fun h' p hp => ?_)⟩
            obtain ⟨pc, hpc⟩ := h' p hp
            exact grow p pc hpc
        · rw [put_cpds] at hcw
          rw [put_domain]
          split at hcw
          · simp at hcw
          · rename_i hwv
            simp only [hwv, if_false]
            exact hR.none w hcw
        · rw [put_rels] at hrw
          split at hrw
          · rename_i hwv
            rw [hwv, hrel, hrw]
          · exact hR.rels w rw' hrw
      have hSp : Sat g (put net v r c) (g.children v ++ P) := by
        intro w rw' hrw hwp hrd
        by_cases hwv : w = v
        · exact ⟨c, by rw [put_cpds]; simp [hwv]⟩
        · rw [put_rels] at hrw
          simp only [hwv, if_false] at hrw
          rw [put_cpds]
          simp only [hwv, if_false]
          rw [List.mem_append, not_or] at hwp
          refine hsat w rw' hrw (by simp [hwv, hwp.2]) (hrd.imp_right (fun h' p hp => ?_))
          obtain ⟨pc, hpc⟩ := h' p hp
          have hpv : p ≠ v := fun h' => hwp.1 (Graph.mem_children.2 (h' ▸ hp))
          rw [put_cpds] at hpc
          simp only [hpv, if_false] at hpc
          exact ⟨pc, hpc⟩
      rcases setItem_cases n net v r with ⟨h1, h2⟩ | ⟨e, _, h1, h2⟩ | ⟨c', hc', ⟨h1, h2⟩ | ⟨_, h1, h2⟩ | ⟨_, _, _, hold, h2⟩ | ⟨_, _, _, h2⟩⟩
      · rw [ht] at h1; simp at h1
      · rw [ht] at h1; simp at h1
      · rw [ht] at hc'
        simp only [Except.ok.injEq] at hc'
        subst hc'
        rw [hR.g_eq] at h1
        exact absurd hscope h1
      · rw [ht] at hc'
        simp only [Except.ok.injEq] at hc'
        subst hc'
        exact absurd hvar h1
      · rw [ht] at hc'
        simp only [Except.ok.injEq] at hc'
        subst hc'
        refine ⟨_, h2, hRp, ?_⟩
        have hcv : ∃ cv, net.cpds.get? v = some cv := by
          by_contra hcon
          have : net.cpds.get? v = none := by
            rw [Option.eq_none_iff_forall_not_mem]
            exact fun x hx => hcon ⟨x, hx⟩
          rw [hR.none v this] at hold
          simp at hold
        intro w rw' hrw hwp hrd
        by_cases hwv : w = v
        · exact ⟨c, by rw [put_cpds]; simp [hwv]⟩
        · rw [put_rels] at hrw
          simp only [hwv, if_false] at hrw
          rw [put_cpds]
          simp only [hwv, if_false]
          refine hsat w rw' hrw (by simp [hwv, hwp]) (hrd.imp_right (fun h' p hp => ?_))
          by_cases hpv : p = v
          · rw [hpv]; exact hcv
          · obtain ⟨pc, hpc⟩ := h' p hp
            rw [put_cpds] at hpc
            simp only [hpv, if_false] at hpc
            exact ⟨pc, hpc⟩
      · rw [ht] at hc'
        simp only [Except.ok.injEq] at hc'
        subst hc'
        rw [h2, hR.g_eq]
        have hcs : ∀ x ∈ g.children v, h x < n := fun x hx => by
          have := hr v x (Graph.mem_children.1 hx)
          omega
        have loop : ∀ (cs : List Node) (N : Net), (∀ x ∈ cs, h x < n) → Run g rel sol N → Sat g N (cs ++ P) →
            ∃ net', setLoop (setItem n) N cs = (net', .ok ()) ∧ Run g rel sol net' ∧ Sat g net' P := by
          intro cs
          induction cs with
          | nil => intro N _ h1 h2; exact ⟨N, rfl, h1, h2⟩
          | cons x xs ihx =>
            intro N hx h1 h2
            unfold setLoop
            cases hrx : N.rels.get? x with
            | none =>
              simp only
              refine ihx N (fun y hy => hx y (by simp [hy])) h1 ?_
              intro w rw' hrw hwp
              refine h2 w rw' hrw ?_
              simp only [List.cons_append, List.mem_cons, not_or]
              refine ⟨fun h' => ?_, hwp⟩
              rw [h', hrx] at hrw
              simp at hrw
            | some rx =>
              simp only
              obtain ⟨N1, k1, k2, k3⟩ := ih N x rx (xs ++ P) (hx x (by simp)) h1 (h1.rels x rx hrx) h2
              rw [k1]
              exact ihx N1 (fun y hy => hx y (by simp [hy])) k2 k3
        exact loop _ _ hcs hRp hSp
    · -- not ready
      rw [not_or] at hready
      obtain ⟨hnt, hex⟩ := hready
      push Not at hex
      obtain ⟨p, hp, hpn⟩ := hex
      have hpn' : net.cpds.get? p = none := by
        rw [Option.eq_none_iff_forall_not_mem]
        exact fun x hx => hpn x hx
      have hnt' : r.isTab = false := by simpa using hnt
      have ht : (stage net v r).toCpd v r = .error .parentsNotReady :=
        toCpd_of_notReady (by rw [hgs]; exact hvn) hnt' (by rw [hgs]; exact hp) (hR.none p hpn')
      have hcv : net.cpds.get? v = none := by
        by_contra hcon
        obtain ⟨c, hc⟩ := Option.ne_none_iff_exists'.1 hcon
        obtain ⟨_, _, r', k3, k4⟩ := hR.cpd v c hc
        have := hR.rels v r' k3
        rw [hrel] at this
        simp only [Option.some.injEq] at this
        subst this
        rcases k4 with k4 | k4
        · exact hnt k4
        · obtain ⟨pc, hpc⟩ := k4 p hp
          exact hpn pc hpc
      have hcs : ∀ w, (stage net v r).cpds.get? w = net.cpds.get? w := by
        intro w
        rw [stage_cpds]
        split
        · rename_i h'; rw [h', hcv]
        · rfl
      rcases setItem_cases n net v r with ⟨h1, h2⟩ | ⟨e, he, h1, h2⟩ | ⟨c', hc', _⟩
      · refine ⟨_, h2, ⟨hgs, fun w c hc => ?_, fun w hc => ?_, fun w r' hr' => ?_⟩, fun w r' hr' hwp hrd => ?_⟩
        · rw [hcs] at hc
          obtain ⟨k1, k2, r', k3, k4⟩ := hR.cpd w c hc
          have hwv : w ≠ v := fun h' => by rw [h', hcv] at hc; simp at hc
          refine ⟨k1, k2, r', by rw [stage_rels]; simp [hwv, k3], k4.imp_right (fun h' p hp => ?_)⟩
          rw [hcs]
          exact h' p hp
        · rw [hcs] at hc
          exact hR.none w hc
        · rw [stage_rels] at hr'
          split at hr'
          · rename_i hwv; rw [hwv, hrel, hr']
          · exact hR.rels w r' hr'
        · rw [hcs]
          simp only [hcs] at hrd
          by_cases hwv : w = v
          · subst hwv
            rw [stage_rels] at hr'
            simp only [if_true, Option.some.injEq] at hr'
            subst hr'
            rcases hrd with hrd | hrd
            · exact absurd hrd hnt
            · obtain ⟨pc, hpc⟩ := hrd p hp
              exact absurd hpc (hpn pc)
          · rw [stage_rels] at hr'
            simp only [hwv, if_false] at hr'
            exact hsat w r' hr' (by simp [hwv, hwp]) hrd
      · rw [ht] at h1
        simp only [Except.error.injEq] at h1
        exact absurd h1.symm he
      · rw [ht] at hc'
        simp at hc'

end Net
end Verif
