import Verif.Lemmas.WholeGame
import Verif.Spec.Equilibria

/-!
# The branches of backward induction
-/

namespace Verif

open Graph Relation Macid

namespace Net

/-- a profile and how it came about: group by group, the rules of a group being found in the network with the rules of the groups
before -/
inductive Branch (ne : Net → List Node → Py (List (List Cpd))) (macid : Net) : List (List Node) → List Cpd → Prop
  | nil : Branch ne macid [] []
  | snoc {groups : List (List Node)} {group : List Node} {p q : List Cpd} {n : Net} {found : List (List Cpd)} :
      Branch ne macid groups p → n.Usable → OnlyRules macid (p.map (·.var)) n → (∀ c ∈ p, n.cpds.get? c.var = some c) →
      ne n group = .ok found → q ∈ found → PolicyOk macid q → (∀ c ∈ q, c.kind ≠ .tabular) → (q.map (·.var)).Perm group →
      Branch ne macid (groups ++ [group]) (p ++ q)

theorem Branch.perm {ne : Net → List Node → Py (List (List Cpd))} {macid : Net} {groups : List (List Node)} {p : List Cpd}
    (h : Branch ne macid groups p) : (p.map (·.var)).Perm groups.flatten := by
  induction h with
  | nil => simp
  | snoc _ _ _ _ _ _ _ _ hq ih =>
    simp only [List.map_append, List.flatten_append, List.flatten_cons, List.flatten_nil, List.append_nil]
    exact ih.append hq

theorem Branch.ok {ne : Net → List Node → Py (List (List Cpd))} {macid : Net} {groups : List (List Node)} {p : List Cpd}
    (h : Branch ne macid groups p) : ∀ c ∈ p, c.var ∈ macid.g.nodes ∧ Accept macid c.var c ∧ NormRule macid c.var c := by
  induction h with
  | nil => simp
  | snoc _ _ _ _ _ _ hq _ _ ih =>
    intro c hc
    rcases List.mem_append.1 hc with h | h
    · exact ih c h
    · exact hq.2 c h

theorem Branch.kind {ne : Net → List Node → Py (List (List Cpd))} {macid : Net} {groups : List (List Node)} {p : List Cpd}
    (h : Branch ne macid groups p) : ∀ c ∈ p, c.kind ≠ .tabular := by
  induction h with
  | nil => simp
  | snoc _ _ _ _ _ _ _ hk _ ih =>
    intro c hc
    rcases List.mem_append.1 hc with h | h
    · exact ih c h
    · exact hk c h

/-- the moment at which the rules of a group were found -/
theorem Branch.at_group {ne : Net → List Node → Py (List (List Cpd))} {macid : Net} {groups : List (List Node)} {p : List Cpd}
    (h : Branch ne macid groups p) : ∀ pre g post, groups = pre ++ g :: post →
    ∃ p1 q p2 n found, p = p1 ++ q ++ p2 ∧ Branch ne macid pre p1 ∧ (p1.map (·.var)).Perm pre.flatten ∧ n.Usable ∧ OnlyRules macid (p1.map (·.var)) n ∧
      (∀ c ∈ p1, n.cpds.get? c.var = some c) ∧ ne n g = .ok found ∧ q ∈ found := by
  induction h with
  | nil => intro pre g post h; simp at h
  | @snoc groups group p q n found hb h1 h2 h3 h4 h5 h6 h6' h7 ih =>
    intro pre g post he
    rcases List.eq_nil_or_concat post with rfl | ⟨post', g', rfl⟩
    · obtain ⟨rfl, e⟩ := List.append_inj' he rfl
      simp only [List.cons.injEq, and_true] at e
      subst e
      exact ⟨p, q, [], n, found, by simp, hb, hb.perm, h1, h2, h3, h4, h5⟩
    · rw [List.concat_eq_append, show pre ++ g :: (post' ++ [g']) = (pre ++ g :: post') ++ [g'] by simp] at he
      obtain ⟨e1, _⟩ := List.append_inj' he rfl
      obtain ⟨p1, q', p2, n', found', k1, k2⟩ := ih pre g post' e1
      exact ⟨p1, q', p2 ++ q, n', found', by rw [k1]; simp, k2⟩

theorem speStep_branch {ne : Net → List Node → Py (List (List Cpd))} {macid : Net} {group W : List Node} : ∀ (level : List (List Cpd)) {N N' : Net}
    {level' : List (List Cpd)}, N.Usable → OnlyRules macid W N → (∀ p ∈ level, PolicyOk macid p ∧ (p.map (·.var)).Perm W) →
    speStep ne group N level = .ok (N', level') → N'.Usable ∧ OnlyRules macid W N' ∧
      ∀ x ∈ level', ∃ p ∈ level, ∃ n found q, n.Usable ∧ OnlyRules macid W n ∧ (∀ c ∈ p, n.cpds.get? c.var = some c) ∧
        ne n group = .ok found ∧ q ∈ found ∧ x = p ++ q
  | [], N, N', level', hN, hO, _, h => by
    simp only [speStep, Except.ok.injEq, Prod.mk.injEq] at h
    obtain ⟨rfl, rfl⟩ := h
    exact ⟨hN, hO, by simp⟩
  | p :: ps, N, N', level', hN, hO, hp, h => by
    obtain ⟨hok, hperm⟩ := hp p (by simp)
    obtain ⟨n, n1, n2, n3, n4⟩ := addPolicy_usable p hN (hok.only hO)
    have hOn : OnlyRules macid W n := hO.trans n3 (fun _ h => h) (fun w hw => hperm.mem_iff.1 hw)
    simp only [speStep] at h
    rw [n1] at h
    simp only at h
    split at h
    · simp at h
    rename_i found hf
    split at h
    · simp at h
    rename_i net2 rest hr
    simp only [Except.ok.injEq, Prod.mk.injEq] at h
    obtain ⟨rfl, rfl⟩ := h
    obtain ⟨k1, k2, k3⟩ := speStep_branch ps n2 hOn (fun p' hp' => hp p' (by simp [hp'])) hr
    refine ⟨k1, k2, fun x hx => ?_⟩
    rcases List.mem_append.1 hx with h | h
    · obtain ⟨q, hq, rfl⟩ := List.mem_map.1 h
      exact ⟨p, by simp, n, found, q, n2, hOn, n4, hf, hq, rfl⟩
    · obtain ⟨p', hp', r⟩ := k3 x h
      exact ⟨p', by simp [hp'], r⟩

theorem speLoop_branch {ne : Net → List Node → Py (List (List Cpd))} {macid : Net}
    {order : List (List Node)} (hord : order.flatten.Nodup)
    (hne : ∀ g ∈ order, ∀ (p : List Cpd) (n : Net) (done : List (List Node)), Branch ne macid done p → n.Usable → OnlyRules macid (p.map (·.var)) n →
      (∀ c ∈ p, n.cpds.get? c.var = some c) → ∀ found, ne n g = .ok found → ∀ q ∈ found, PolicyOk macid q ∧ (∀ c ∈ q, c.kind ≠ .tabular) ∧
        (q.map (·.var)).Perm g) :
    ∀ (todo done : List (List Node)) {N : Net} {level out : List (List Cpd)}, order = done ++ todo → N.Usable →
    OnlyRules macid done.flatten N → (∀ p ∈ level, Branch ne macid done p) → speLoop ne N level todo = .ok out →
    ∀ p ∈ out, Branch ne macid order p
  | [], done, N, level, out, ho, _, _, hl, h => by
    simp only [speLoop, Except.ok.injEq] at h
    subst h
    rw [ho, List.append_nil]
    exact hl
  | g :: todo, done, N, level, out, ho, hN, hO, hl, h => by
    simp only [speLoop] at h
    split at h
    · simp at h
    rename_i N' level' hs
    have hnd : done.flatten.Nodup := by
      rw [ho, List.flatten_append] at hord
      exact (List.nodup_append.1 hord).1
    have hok : ∀ p ∈ level, PolicyOk macid p := fun p hp => ⟨(hl p hp).perm.nodup_iff.2 hnd, (hl p hp).ok⟩
    obtain ⟨k1, k2, k3⟩ := speStep_branch level hN hO (fun p hp => ⟨hok p hp, (hl p hp).perm⟩) hs
    have hmono : OnlyRules macid (done ++ [g]).flatten N' := k2.mono (fun w hw => by simp [hw])
    refine speLoop_branch hord hne todo (done ++ [g]) (by rw [ho]; simp) k1 hmono (fun x hx => ?_) h
    obtain ⟨p, hp, n, found, q, j1, j2, j3, j4, j5, rfl⟩ := k3 x hx
    have j2' : OnlyRules macid (p.map (·.var)) n := j2.congr (fun w => (hl p hp).perm.mem_iff.symm)
    obtain ⟨i1, i2, i3⟩ := hne g (by rw [ho]; simp) p n done (hl p hp) j1 j2' j3 found j4 q j5
    exact .snoc (hl p hp) j1 j2' j3 j4 j5 i1 i2 i3

end Net
end Verif
