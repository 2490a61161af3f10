import Verif.Spec.Cbn
import Verif.Lemmas.Build

/-!
# A plain network behaves as an influence diagram without roles
-/

namespace Verif
open Net Graph Macid

namespace Cbn

theorem toCpd_eq (net : Net) (v : Node) {r : Rel} (hr : ∀ l, r ≠ .seq l) : toCpd net v r = net.toCpd v r := by
  cases r with
  | seq l => exact absurd rfl (hr l)
  | _ => rfl

theorem listFree_set {rels : List (Node × Rel)} (h : ListFree rels) (v : Node) {r : Rel} (hr : ∀ l, r ≠ .seq l) :
    ListFree (Dict.erase rels v ++ [(v, r)]) := by
  intro w l hm
  rcases List.mem_append.1 hm with hm | hm
  · exact h w l (List.mem_filter.1 hm).1
  · rw [List.mem_singleton, Prod.mk.injEq] at hm
    exact hr l hm.2.symm

theorem setLoop_eq {n : Nat} (ih : ∀ (net : Net) (v : Node) (r : Rel), ListFree net.rels → (∀ l, r ≠ .seq l) →
    setItem n net v r = Net.setItem n net v r ∧ ListFree (Net.setItem n net v r).1.rels) :
    ∀ (cs : List Node) (net : Net), ListFree net.rels →
      Net.setLoop (setItem n) net cs = Net.setLoop (Net.setItem n) net cs ∧
        ListFree (Net.setLoop (Net.setItem n) net cs).1.rels
  | [], net, h => ⟨rfl, h⟩
  | c :: cs, net, h => by
    unfold Net.setLoop
    cases hc : net.rels.get? c with
    | none => exact setLoop_eq ih cs net h
    | some r =>
      simp only
      have hr : ∀ l, r ≠ .seq l := by
        rintro l rfl
        exact h c l (Dict.mem_of_get? hc)
      obtain ⟨e1, e2⟩ := ih net c r h hr
      rw [e1]
      generalize Net.setItem n net c r = x at e2
      obtain ⟨net', y⟩ := x
      cases y with
      | error e => exact ⟨rfl, e2⟩
      | ok u => exact setLoop_eq ih cs net' e2

theorem setItem_eq : ∀ (n : Nat) (net : Net) (v : Node) (r : Rel), ListFree net.rels → (∀ l, r ≠ .seq l) →
    setItem n net v r = Net.setItem n net v r ∧ ListFree (Net.setItem n net v r).1.rels
  | 0, net, v, r, h, _ => ⟨rfl, h⟩
  | n + 1, net, v, r, h, hr => by
    have hl := listFree_set h v hr
    unfold setItem Net.setItem
    simp only
    rw [toCpd_eq _ _ hr]
    generalize Net.toCpd _ v r = t
    cases t with
    | error e => cases e <;> exact ⟨rfl, hl⟩
    | ok c =>
      simp only
      split_ifs
      · exact ⟨rfl, hl⟩
      · exact ⟨rfl, hl⟩
      · exact ⟨rfl, hl⟩
      · exact setLoop_eq (setItem_eq n) _ _ hl

theorem set_eq {net : Net} (h : ListFree net.rels) (v : Node) {r : Rel} (hr : ∀ l, r ≠ .seq l) :
    set net v r = net.set v r ∧ ListFree (net.set v r).1.rels := setItem_eq _ _ _ _ h hr

theorem addCpds_eq : ∀ (rels : List (Node × Rel)) (net : Net), ListFree net.rels → ListFree rels →
    addCpds net rels = net.addCpds rels ∧ ListFree (net.addCpds rels).1.rels
  | [], _, h, _ => ⟨rfl, h⟩
  | (v, r) :: rs, net, h, hl => by
    obtain ⟨e1, e2⟩ := set_eq h v (r := r) (by rintro l rfl; exact hl v l (by simp))
    unfold addCpds Net.addCpds
    rw [e1]
    generalize net.set v r = x at e2
    obtain ⟨net', y⟩ := x
    cases y with
    | error e => exact ⟨rfl, e2⟩
    | ok u => exact addCpds_eq rs net' e2 (fun w l hm => hl w l (by simp [hm]))

theorem copyRel_list {net : Net} {v : Node} {r r' : Rel} (hr : ∀ l, r ≠ .seq l) (h : net.copyRel v r = .ok r') :
    ∀ l, r' ≠ .seq l := by
  rintro l rfl
  cases r with
  | seq l => exact hr l rfl
  | func f => simp [copyRel] at h
  | dist d => simp [copyRel] at h
  | tab c =>
    unfold copyRel at h
    simp only at h
    split at h
    · simp at h
    · split at h <;> simp at h
    · split at h <;> simp at h

theorem copyLoop_eq (net : Net) : ∀ (rels : List (Node × Rel)) (acc : Net), ListFree acc.rels → ListFree rels →
    copyLoop net acc rels = net.copyLoop acc rels ∧ ∀ c, net.copyLoop acc rels = .ok c → ListFree c.rels
  | [], acc, h, _ => ⟨rfl, fun c hc => by simp only [Net.copyLoop, Except.ok.injEq] at hc; exact hc ▸ h⟩
  | (v, r) :: rs, acc, h, hl => by
    unfold copyLoop Net.copyLoop
    cases hc : net.copyRel v r with
    | error e => exact ⟨rfl, by simp⟩
    | ok r' =>
      simp only
      obtain ⟨e1, e2⟩ := set_eq h v (copyRel_list (by rintro l rfl; exact hl v l (by simp)) hc)
      rw [e1]
      generalize acc.set v r' = x at e2
      obtain ⟨acc', y⟩ := x
      cases y with
      | error e => exact ⟨rfl, by simp⟩
      | ok u => exact copyLoop_eq net rs acc' e2 (fun w l hm => hl w l (by simp [hm]))

theorem copy_eq {net : Net} (h : Plain net) : copy net = net.copy ∧ ∀ c, net.copy = .ok c → ListFree c.rels := by
  have hb : net.base = Macid.new := h.base
  have hm : net.m.agents = [] := by rw [h.roles]; rfl
  unfold copy copyWithoutCpds Net.copy Macid.copyWithoutCpds
  rw [hb, hm]
  cases hg : (Macid.new.g.addNodes net.m.g.nodes).addEdges net.m.g.edgesView with
  | error e => exact ⟨rfl, by simp⟩
  | ok g =>
    simp only [Macid.copyRoles]
    exact copyLoop_eq net net.rels _ (by intro v l; simp) h.lists

theorem interveneOne_eq {net : Net} (h : ListFree net.rels) (x : Node) (v : Outcome) :
    interveneOne net x v = net.interveneOne x v ∧ ListFree (net.interveneOne x v).1.rels := by
  have hd : ListFree (net.delKey x).rels := fun w l hm => h w l (List.mem_filter.1 hm).1
  unfold interveneOne Net.interveneOne
  simp only
  split_ifs
  · generalize Dict.get? _ x = t
    cases t with
    | none => exact ⟨rfl, hd⟩
    | some d =>
      have hd' : ∀ g, ListFree ((net.delKey x).withGraph g).rels := fun _ => hd
      apply set_eq (hd' _) x
      rintro l ⟨⟩
  · exact ⟨rfl, hd⟩
  · exact ⟨rfl, h⟩

theorem intervene_eq : ∀ (ints : List (Node × Outcome)) {net : Net}, ListFree net.rels →
    intervene net ints = net.intervene ints ∧ ListFree (net.intervene ints).1.rels
  | [], _, h => ⟨rfl, h⟩
  | (x, v) :: rest, net, h => by
    obtain ⟨e1, e2⟩ := interveneOne_eq h x v
    unfold intervene Net.intervene
    rw [e1]
    generalize net.interveneOne x v = y at e2
    obtain ⟨net', z⟩ := y
    cases z with
    | error e => exact ⟨rfl, e2⟩
    | ok u => exact intervene_eq rest e2

theorem query_eq {net : Net} (h : Plain net) (ord : List Node → List Node) (q : List Node)
    (ctx int : List (Node × Outcome)) : query ord net q ctx int = net.queryCbn ord q ctx int := by
  unfold query queryCbn queryCore
  cases net.checkContextCbn ctx with
  | error e => rfl
  | ok u =>
    cases int with
    | nil => rfl
    | cons p l =>
      simp only
      obtain ⟨e1, e2⟩ := copy_eq h
      rw [e1]
      cases hc : net.copy with
      | error e => rfl
      | ok c =>
        simp only
        rw [(intervene_eq (p :: l) (e2 c hc)).1]
        rfl

/-- no roles at all are consistent roles -/
theorem Ready.usable {net : Net} (h : Ready net) : net.Usable := by
  have hr := h.plain.roles
  refine ⟨h.good, h.normalised, ⟨h.good.wf, ?_, ?_, ?_, ?_⟩, Or.inl h.plain.base, ⟨?_, ?_⟩⟩ <;> rw [hr]
  · exact ⟨by simp [Dict.keys], by simp [Dict.keys], by simp [Dict.get?], by simp [Dict.get?]⟩
  · exact ⟨by simp [Dict.keys], by simp [Dict.keys], by simp [Dict.get?], by simp [Dict.get?]⟩
  · simp [Macid.decisions, Dict.keys]
  · simp [Macid.decisions, Macid.utilities, Dict.keys]
  · simp [Dict.keys]
  · simp [Dict.keys]

end Cbn
end Verif
