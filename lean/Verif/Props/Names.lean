import Verif.Spec.Names
import Verif.Lemmas.Infer
import Verif.Lemmas.Do
import Verif.Lemmas.Build
import Verif.Lemmas.Accept
import Verif.Props.Query

/-!
# C106: tables are read by position
-/

namespace Verif
open Net

/-! ### the position of a combination of values -/

/-- the position of a combination in the order of `itertools.product` -/
def posIn : List (List Outcome) → List Outcome → Nat
  | d :: ds, x :: xs => d.idxOf x * (ds.map List.length).prod + posIn ds xs
  | _, _ => 0

theorem get_zip {α β : Type} [DecidableEq α] [BEq α] [LawfulBEq α] {l : List α} {a : α} (h : a ∈ l) (t : List β) :
    Dict.get? (l.zip t) a = t[l.idxOf a]? := by
  induction l generalizing t with
  | nil => simp at h
  | cons b l ih =>
    cases t with
    | nil => simp [Dict.get?]
    | cons y t =>
      by_cases hb : b = a
      · subst hb
        simp [Dict.get?]
      · have h' : a ∈ l := by
          rcases List.mem_cons.1 h with e | e
          · exact absurd e.symm hb
          · exact e
        rw [List.idxOf_cons_ne _ hb]
        simp [Dict.get?, hb, ih h' t]

theorem idxOf_map_cons (y : Outcome) (P : List (List Outcome)) (ys : List Outcome) :
    (P.map (y :: ·)).idxOf (y :: ys) = P.idxOf ys := by
  induction P with
  | nil => simp
  | cons q P ih =>
    by_cases h : q = ys
    · subst h; simp
    · rw [List.map_cons, List.idxOf_cons_ne _ (by simpa using h), List.idxOf_cons_ne _ h, ih]

theorem idxOf_flat (d : List Outcome) (P : List (List Outcome)) {y : Outcome} {ys : List Outcome} (hy : y ∈ d)
    (hys : ys ∈ P) :
    (d.flatMap (fun x => P.map (x :: ·))).idxOf (y :: ys) = d.idxOf y * P.length + P.idxOf ys := by
  induction d with
  | nil => simp at hy
  | cons x d ih =>
    rw [List.flatMap_cons]
    by_cases h : x = y
    · subst h
      rw [List.idxOf_append_of_mem (List.mem_map.2 ⟨ys, hys, rfl⟩), idxOf_map_cons]
      simp
    · have h' : y ∈ d := by
        rcases List.mem_cons.1 hy with e | e
        · exact absurd e.symm h
        · exact e
      have hn : y :: ys ∉ P.map (x :: ·) := by
        intro hm
        obtain ⟨q, _, e⟩ := List.mem_map.1 hm
        exact h (List.cons.inj e).1
      rw [List.idxOf_append_of_notMem hn, ih h', List.idxOf_cons_ne _ h, List.length_map, Nat.succ_mul]
      ring

theorem idxOf_product {ds : List (List Outcome)} {xs : List Outcome} (h : List.Forall₂ (· ∈ ·) xs ds) :
    (product ds).idxOf xs = posIn ds xs := by
  induction h with
  | nil => simp [product, posIn]
  | @cons x d xs ds hx hxs ih =>
    simp only [product, posIn]
    rw [idxOf_flat d _ hx (mem_product.2 hxs), ih, Verif.length_product]

theorem sameSpot_idx {l m : List Outcome} (hm : m.Nodup) (hl : l.length = m.length) {x : Outcome} (hx : x ∈ l) :
    sameSpot l m x ∈ m ∧ m.idxOf (sameSpot l m x) = l.idxOf x := by
  have h1 : l.idxOf x < m.length := hl ▸ List.idxOf_lt_length_iff.2 hx
  have e : sameSpot l m x = m[l.idxOf x] := by
    simp [sameSpot, List.getD_eq_getElem?_getD, List.getElem?_eq_getElem h1]
  rw [e]
  exact ⟨List.getElem_mem _, hm.idxOf_getElem _ _⟩

theorem posIn_sameSpot (ps : List Node) (l m : Node → List Outcome) (a : Assign)
    (hm : ∀ p ∈ ps, (m p).Nodup) (hl : ∀ p ∈ ps, (l p).length = (m p).length) (ha : ∀ p ∈ ps, a p ∈ l p) :
    posIn (ps.map l) (ps.map a) = posIn (ps.map m) (ps.map (fun p => sameSpot (l p) (m p) (a p))) := by
  induction ps with
  | nil => rfl
  | cons p ps ih =>
    simp only [List.map_cons, posIn]
    rw [ih (fun q hq => hm q (by simp [hq])) (fun q hq => hl q (by simp [hq])) (fun q hq => ha q (by simp [hq])),
      (sameSpot_idx (hm p (by simp)) (hl p (by simp)) (ha p (by simp))).2]
    congr 2
    rw [List.map_map, List.map_map]
    congr 1
    exact List.map_congr_left (fun q hq => hl q (by simp [hq]))

theorem forall_mem (ps : List Node) (l : Node → List Outcome) (a : Assign) (ha : ∀ p ∈ ps, a p ∈ l p) :
    List.Forall₂ (· ∈ ·) (ps.map a) (ps.map l) := by
  induction ps with
  | nil => exact .nil
  | cons p ps ih => exact .cons (ha p (by simp)) (ih (fun q hq => ha q (by simp [hq])))

theorem column_sameSpot {β : Type} (t : List β) (ps : List Node) (l m : Node → List Outcome) (a : Assign)
    (hm : ∀ p ∈ ps, (m p).Nodup) (hl : ∀ p ∈ ps, (l p).length = (m p).length) (ha : ∀ p ∈ ps, a p ∈ l p) :
    Dict.get? ((product (ps.map l)).zip t) (ps.map a) =
      Dict.get? ((product (ps.map m)).zip t) (ps.map (fun p => sameSpot (l p) (m p) (a p))) := by
  have h1 := forall_mem ps l a ha
  have h2 := forall_mem ps m (fun p => sameSpot (l p) (m p) (a p))
    (fun p hp => (sameSpot_idx (hm p hp) (hl p hp) (ha p hp)).1)
  rw [get_zip (mem_product.2 h1), get_zip (mem_product.2 h2), idxOf_product h1, idxOf_product h2,
    posIn_sameSpot ps l m a hm hl ha]

/-! ### the property -/

/-- **C106** `sync_state_names` replaces the names of every table by the recorded domains, and nothing
else. -/
theorem C106_sync {domain : Dict Node (List Outcome)} {ts ts' : List Table} (h : Table.sync domain ts = .ok ts') :
    ts' = ts.map (fun t => ⟨t.cpd, domain⟩) := by
  induction ts generalizing ts' with
  | nil => simp [Table.sync] at h; simp [h]
  | cons t ts ih =>
    simp only [Table.sync, Table.storeStateNames] at h
    split at h
    · simp at h
    · rename_i t' h1
      split at h
      · simp at h
      · rename_i ts1 h2
        cases h
        rw [ih h2]
        split_ifs at h1
        cases h1
        rfl

/-- **C106** Inside a network a table is read by position: the probability the network uses for `v`
when the parents take the values `a` is the entry of the user's table under the names that stand at
the same positions, whatever names the user gave to the outcomes of the parents. -/
theorem C106_by_position {net : Net} (hG : Good net) {v : Node} {t : Table} (ht : t.Sound)
    (hr : net.rels.get? v = some (.tab t.cpd)) (hv : v ∈ net.g.nodes) (a : Assign) (ha : net.InDom a) :
    net.kernel v a =
      (t.value (t.cpd.evidence.map (fun p => sameSpot (net.dom p) (t.at_ p) (a p))) (a v)).getD 0 := by
  obtain ⟨c, hc, hd⟩ := hG.complete v hv
  obtain ⟨_, r, hr', he⟩ := hG.reflects v c hc
  rw [hr] at hr'
  cases hr'
  cases he
  have hF := hG.fits v _ hc
  have hp : ∀ p ∈ t.cpd.evidence, p ∈ net.g.nodes := fun p hp => (hG.wf.edgeNodes p v ((hF.parents p).1 hp)).1
  have hl : ∀ p ∈ t.cpd.evidence, (net.dom p).length = (t.at_ p).length := by
    have e := hF.cards.symm.trans ht.cards
    intro p hp
    exact List.map_inj_left.1 e p hp
  have key := column_sameSpot t.cpd.table t.cpd.evidence net.dom t.at_ a ht.nodup hl (fun p h => ha p (hp p h))
  have hown : t.at_ t.cpd.var = t.cpd.domain := by simp [Table.at_, ht.own]
  unfold Net.kernel
  rw [hc]
  simp only [Cpd.prob, Cpd.entry, Cpd.col, Table.value, hown]
  rw [← key]
  rfl

/-- **C106** Hence a table means what the user wrote if they listed the outcomes of each parent in the
order in which the network records them. -/
theorem C106_agreeing_names {net : Net} (hG : Good net) {v : Node} {t : Table} (ht : t.Sound)
    (hr : net.rels.get? v = some (.tab t.cpd)) (hv : v ∈ net.g.nodes)
    (hn : ∀ p ∈ t.cpd.evidence, t.names.get? p = net.domain.get? p) (a : Assign) (ha : net.InDom a) :
    net.kernel v a = (t.value (t.cpd.evidence.map a) (a v)).getD 0 := by
  rw [C106_by_position hG ht hr hv a ha]
  obtain ⟨c, hc, hd⟩ := hG.complete v hv
  obtain ⟨_, r, hr', he⟩ := hG.reflects v c hc
  rw [hr] at hr'
  cases hr'
  cases he
  have hF := hG.fits v _ hc
  congr 2
  refine List.map_congr_left (fun p hp => ?_)
  have hpn := (hG.wf.edgeNodes p v ((hF.parents p).1 hp)).1
  have e : t.at_ p = net.dom p := by simp [Table.at_, Net.dom, hn p hp]
  rw [e]
  have h1 := List.idxOf_lt_length_iff.2 (ha p hpn)
  simp [sameSpot, List.getD_eq_getElem?_getD, List.getElem?_eq_getElem h1]

/-- `TabularCPD("D", 2, [[0, 1], [1, 0]], evidence=["A"], evidence_card=[2],
state_names={"D": [0, 1], "A": order})` -/
def ExNames.table (order : List Outcome) : Table :=
  ⟨⟨"D", [0, 1], ["A"], [2], [[0, 1], [1, 0]], .tabular, fun _ => .error .key, none⟩,
    [("D", [0, 1]), ("A", order)]⟩

/-- the network `A → D → U`, `A → U` with this table for the decision -/
def ExNames.net : Net := (Ex.net.set "D" (.tab (ExNames.table [1, 0]).cpd)).1

theorem ExNames.good : ExNames.net.Good ∧ (Ex.net.set "D" (.tab (ExNames.table [1, 0]).cpd)).2 = .ok () := by
  have hA : Accept Ex.net "D" (ExNames.table [1, 0]).cpd := by
    refine ⟨by decide +kernel, ⟨rfl, fun p => ?_, by decide +kernel, by decide +kernel⟩,
      ⟨by decide +kernel, by decide +kernel, by decide +kernel, by decide +kernel, by decide +kernel⟩, fun h => absurd rfl h⟩
    rw [← Graph.mem_parents]
    have e : Ex.net.g.parents "D" = ["A"] := by decide +kernel
    rw [e]
    rfl
  obtain ⟨net', h1, h2, _⟩ := hA.set Ex.net_usable.good (by decide +kernel)
  unfold ExNames.net
  rw [h1]
  exact ⟨h2, rfl⟩

/-- **C106** (what goes wrong) The user's table says that the decision equals A, with the outcomes of A listed as 1, 0.
The network records them as 0, 1 and takes the same table to say that the decision differs from A. -/
theorem C106_other_order :
    let t := ExNames.table [1, 0]
    t.Sound ∧ ExNames.net.Good ∧ ExNames.net.rels.get? "D" = some (.tab t.cpd) ∧
    ExNames.net.dom "A" = [0, 1] ∧
    (∀ x ∈ [(0 : Outcome), 1], t.value [x] x = some 1) ∧
    (∀ a, ExNames.net.InDom a → ExNames.net.kernel "D" a = if a "D" = a "A" then 0 else 1) := by
  intro t
  have hS : t.Sound := ⟨by decide +kernel, by decide +kernel, by decide +kernel⟩
  have hr : ExNames.net.rels.get? "D" = some (.tab t.cpd) := set_rels _ _ _ _
  have hD : ExNames.net.dom "D" = [0, 1] := by decide +kernel
  have hA : ExNames.net.dom "A" = [0, 1] := by decide +kernel
  refine ⟨hS, ExNames.good.1, hr, hA, by decide +kernel, fun a ha => ?_⟩
  rw [C106_by_position ExNames.good.1 hS hr (by decide +kernel) a ha]
  have h1 : a "A" ∈ ExNames.net.dom "A" := ha "A" (by decide +kernel)
  have h2 : a "D" ∈ ExNames.net.dom "D" := ha "D" (by decide +kernel)
  show (t.value [sameSpot (ExNames.net.dom "A") (t.at_ "A") (a "A")] (a "D")).getD 0 = _
  rw [hA] at h1 ⊢
  rw [hD] at h2
  simp only [List.mem_cons, List.not_mem_nil, or_false] at h1 h2
  rcases h1 with e1 | e1 <;> rcases h2 with e2 | e2 <;> rw [e1, e2] <;> decide +kernel

/-- With the outcomes listed as the network records them the table keeps its meaning. -/
theorem C106_example :
    let t := ExNames.table [0, 1]
    t.Sound ∧ ExNames.net.rels.get? "D" = some (.tab t.cpd) ∧
    (∀ p ∈ t.cpd.evidence, t.names.get? p = ExNames.net.domain.get? p) ∧
    (∀ a, ExNames.net.InDom a → ExNames.net.kernel "D" a = (t.value [a "A"] (a "D")).getD 0) ∧
    (∃ ts, Table.sync ExNames.net.domain [ExNames.table [1, 0]] = .ok ts) := by
  intro t
  have hS : t.Sound := ⟨by decide +kernel, by decide +kernel, by decide +kernel⟩
  have hr : ExNames.net.rels.get? "D" = some (.tab t.cpd) := set_rels _ _ _ _
  have hn : ∀ p ∈ t.cpd.evidence, t.names.get? p = ExNames.net.domain.get? p := by decide +kernel
  refine ⟨hS, hr, hn, fun a ha => C106_agreeing_names ExNames.good.1 hS hr (by decide +kernel) hn a ha,
    [⟨(ExNames.table [1, 0]).cpd, ExNames.net.domain⟩], ?_⟩
  have e1 : ExNames.net.domain.isEmpty = false := by decide +kernel
  have e2 : ExNames.net.domain.all (fun p => decide p.2.Nodup) = true := by decide +kernel
  simp [Table.sync, Table.storeStateNames, e1, e2, ExNames.table]

end Verif
