import Verif.Lemmas.EfgGrow

/-!
# Every information set has a key
-/

namespace Verif
open Net

namespace Efg

/-- every information set of the game can be found in `parents_to_infoset` -/
def Keyed (t : Efg) : Prop := ∀ (i : Nat) (s : Infoset), t.infosets[i]? = some s → ∃ k, t.keys.get? k = some i

theorem Keyed.of_eq {t t' : Efg} (h : t.Keyed) (h1 : t'.infosets = t.infosets) (h2 : t'.keys = t.keys) : t'.Keyed := by
  intro i s hs
  rw [h1] at hs
  rw [h2]
  exact h i s hs

theorem Keyed.decideAt {t t' : Efg} (h : t.Keyed) {agent : Agent} {node : Node} {idx : List Nat} {pa : List (Node × Outcome)}
    {actions : List Outcome} (hd : t.decideAt agent node idx pa actions = .ok t') : t'.Keyed := by
  unfold Efg.decideAt at hd
  split at hd
  · split at hd
    · simp at hd
    rename_i i hk _ t1 h1
    split at hd
    · simp at hd
    rename_i s hs
    split at hd
    · simp at hd
    simp only [Except.ok.injEq] at hd
    subst hd
    obtain ⟨_, rfl⟩ := appendMove_ok h1
    obtain ⟨_, _, e3, e4, _⟩ := addStates_spec node idx actions 0
      { ({ t with moves := t.moves.set idx (.decision i) } : Efg) with
        infosets := t.infosets.set i { s with actions := actions ++ s.actions.drop actions.length } }
    intro j s' hs'
    rw [e3] at hs'
    rw [e4]
    have hj : j < t.infosets.length := by
      have := (List.getElem?_eq_some_iff.1 hs').1
      simpa using this
    exact h j _ (List.getElem?_eq_getElem hj)
  · rename_i hk
    simp only at hd
    split at hd
    · simp at hd
    rename_i t1 h1
    simp only [Except.ok.injEq] at hd
    subst hd
    obtain ⟨_, rfl⟩ := appendMove_ok h1
    obtain ⟨_, _, e3, e4, _⟩ := addStates_spec node idx actions 0
      { ({ t with moves := t.moves.set idx (.decision t.infosets.length) } : Efg) with
        infosets := t.infosets ++ [⟨agent, node, actions⟩], keys := t.keys.set (agent, pa) t.infosets.length }
    intro j s' hs'
    rw [e3] at hs'
    rw [e4]
    simp only at hs' ⊢
    by_cases hj : j < t.infosets.length
    · obtain ⟨k, hk'⟩ := h j _ (List.getElem?_eq_getElem hj)
      refine ⟨k, ?_⟩
      rw [Dict.get?_set]
      split
      · rename_i e
        rw [e, hk] at hk'
        simp at hk'
      · exact hk'
    · have : j < (t.infosets ++ [(⟨agent, node, actions⟩ : Infoset)]).length := (List.getElem?_eq_some_iff.1 hs').1
      have e : j = t.infosets.length := by simp at this; omega
      subst e
      exact ⟨(agent, pa), by simp [Dict.get?_set]⟩

end Efg

namespace Net

theorem growAt_keyed {pick : Pick} {ord : List Node → List Node} {decs : List Node} {node : Node} {net net' : Net} {t t' : Efg} {idx : List Nat}
    (ht : t.Keyed) (h : growAt pick ord decs node net t idx = (net', .ok t')) : t'.Keyed := by
  unfold growAt at h
  split at h
  · simp at h
  split at h
  · simp at h
  split at h
  · split at h
    · simp at h
    split at h
    · simp at h
    split at h
    · simp at h
    simp only [Prod.mk.injEq] at h
    exact ht.decideAt h.2
  · split at h
    · simp at h
    split at h
    · simp at h
    split at h
    · simp at h
    split at h
    · simp at h
    rename_i actions _ _ t1 h1
    simp only [Prod.mk.injEq, Except.ok.injEq] at h
    obtain ⟨_, rfl⟩ := h
    obtain ⟨_, e⟩ := appendMove_ok h1
    obtain ⟨_, _, e3, e4, _⟩ := addStates_spec node idx actions 0 t1
    exact ht.of_eq (by rw [e3, e]) (by rw [e4, e])

theorem loopNet_inv {α β : Type} {f : Net → β → α → Net × Py β} {P : β → Prop} (hf : ∀ n t x n' t', P t → f n t x = (n', .ok t') → P t') :
    ∀ (xs : List α) {n n' : Net} {t t' : β}, P t → loopNet f n t xs = (n', .ok t') → P t'
  | [], n, n', t, t', ht, h => by
    simp only [loopNet, Prod.mk.injEq, Except.ok.injEq] at h
    exact h.2 ▸ ht
  | x :: xs, n, n', t, t', ht, h => by
    unfold loopNet at h
    split at h
    · simp at h
    rename_i n1 t1 h1
    exact loopNet_inv hf xs (hf n t x n1 t1 ht h1) h

theorem growNodes_keyed {pick : Pick} {ord : List Node → List Node} {decs : List Node} : ∀ (todo : List (Node × Nat)) {net net' : Net} {t t' : Efg}
    {done : List (List Nat)}, t.Keyed → growNodes pick ord decs net t done todo = (net', .ok t') → t'.Keyed
  | [], net, net', t, t', done, ht, h => by
    simp only [growNodes, Prod.mk.injEq, Except.ok.injEq] at h
    exact h.2 ▸ ht
  | (v, n) :: todo, net, net', t, t', done, ht, h => by
    unfold growNodes at h
    split at h
    · simp at h
    rename_i n1 t1 h1
    exact growNodes_keyed todo (loopNet_inv (P := Efg.Keyed) (fun _ _ _ _ _ hP hh => growAt_keyed hP hh) _ ht h1) h

theorem macidToEfg_keyed {pick : Pick} {tpick : List Node → Nat} {ord : List Node → List Node} {net net' : Net} {decs : List Node} {agents : List Agent}
    {t : Efg} (h : macidToEfg pick tpick ord net decs agents = (net', .ok t)) : t.Keyed := by
  unfold macidToEfg at h
  split at h
  · simp at h
  split at h
  · simp at h
  split at h
  · simp at h
  simp only at h
  split at h
  · simp at h
  rename_i n1 t1 h1
  refine loopNet_inv (P := Efg.Keyed) ?_ _ (growNodes_keyed _ (fun i s hs => by simp at hs) h1) h
  intro n t x n' t' hP hh
  unfold addPayoff at hh
  split at hh
  · simp at hh
  split at hh
  · simp at hh
  simp only [Prod.mk.injEq, Except.ok.injEq] at hh
  obtain ⟨_, rfl⟩ := hh
  exact hP.of_eq rfl rfl

end Net
end Verif
