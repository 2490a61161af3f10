import Verif.Props.SimpleCbns
import Verif.Props.Intervene
import Verif.Lemmas.Infer

/-!
# C134: interventions one after the other
-/

namespace Verif
open Net Graph

/-- `net.intervene(c)` for each of the calls in turn -/
def interveneCalls (intervene : Net → List (Node × Outcome) → Net × Py Unit) : Net → List (List (Node × Outcome)) → Net × Py Unit
  | net, [] => (net, .ok ())
  | net, c :: cs =>
    match intervene net c with
    | (n, .error e) => (n, .error e)
    | (n, .ok _) => interveneCalls intervene n cs

/-- the last value given to each variable -/
def lastOf : List (Node × Outcome) → List (Node × Outcome)
  | [] => []
  | p :: l => if p.1 ∈ l.map (·.1) then lastOf l else p :: lastOf l

theorem mem_lastOf_keys {l : List (Node × Outcome)} {x : Node} : x ∈ (lastOf l).map (·.1) ↔ x ∈ l.map (·.1) := by
  induction l with
  | nil => simp [lastOf]
  | cons p l ih =>
    unfold lastOf
    split_ifs with h
    · rw [ih, List.map_cons, List.mem_cons]
      constructor
      · exact Or.inr
      · rintro (e | e)
        · rw [e]; exact h
        · exact e
    · rw [List.map_cons, List.mem_cons, ih, List.map_cons, List.mem_cons]

theorem lastOf_nodup (l : List (Node × Outcome)) : ((lastOf l).map (·.1)).Nodup := by
  induction l with
  | nil => simp [lastOf]
  | cons p l ih =>
    unfold lastOf
    split_ifs with h
    · exact ih
    · rw [List.map_cons, List.nodup_cons, mem_lastOf_keys]
      exact ⟨h, ih⟩

theorem mem_lastOf {l : List (Node × Outcome)} {x : Node} {v : Outcome} :
    (x, v) ∈ lastOf l ↔ ∃ pre post, l = pre ++ (x, v) :: post ∧ x ∉ post.map (·.1) := by
  induction l with
  | nil => simp [lastOf]
  | cons p l ih =>
    have hstep : (∃ pre post, p :: l = pre ++ (x, v) :: post ∧ x ∉ post.map (·.1)) ↔
        (p = (x, v) ∧ x ∉ l.map (·.1)) ∨ ∃ pre post, l = pre ++ (x, v) :: post ∧ x ∉ post.map (·.1) := by
      constructor
      · rintro ⟨pre, post, h1, h2⟩
        cases pre with
        | nil =>
          simp only [List.nil_append, List.cons.injEq] at h1
          exact Or.inl ⟨h1.1, by rw [h1.2]; exact h2⟩
        | cons q pre =>
          simp only [List.cons_append, List.cons.injEq] at h1
          exact Or.inr ⟨pre, post, h1.2, h2⟩
      · rintro (⟨rfl, h⟩ | ⟨pre, post, h1, h2⟩)
        · exact ⟨[], l, rfl, h⟩
        · exact ⟨p :: pre, post, by rw [h1]; rfl, h2⟩
    rw [hstep, ← ih, show lastOf (p :: l) = if p.1 ∈ l.map (·.1) then lastOf l else p :: lastOf l from rfl]
    split_ifs with h
    · constructor
      · exact Or.inr
      · rintro (⟨rfl, q⟩ | q)
        · exact absurd h q
        · exact q
    · rw [List.mem_cons]
      constructor
      · rintro (e | e)
        · refine Or.inl ⟨e.symm, ?_⟩
          rw [← e] at h; exact h
        · exact Or.inr e
      · rintro (⟨e, _⟩ | e)
        · exact Or.inl e.symm
        · exact Or.inr e

theorem intervene_append (net : Net) (a b : List (Node × Outcome)) : net.intervene (a ++ b) = match net.intervene a with
    | (n, .error e) => (n, .error e)
    | (n, .ok _) => n.intervene b := by
  induction a generalizing net with
  | nil => rfl
  | cons p a ih =>
    obtain ⟨x, v⟩ := p
    simp only [List.cons_append, intervene]
    generalize net.interveneOne x v = y
    obtain ⟨n, e | _⟩ := y
    · rfl
    · exact ih n

theorem interveneCalls_flatten (net : Net) (cs : List (List (Node × Outcome))) : interveneCalls Net.intervene net cs = net.intervene cs.flatten := by
  induction cs generalizing net with
  | nil => rfl
  | cons c cs ih =>
    rw [List.flatten_cons, intervene_append]
    unfold interveneCalls
    generalize net.intervene c = y
    obtain ⟨n, e | _⟩ := y
    · rfl
    · exact ih n

theorem repeated_spec {l : List (Node × Outcome)} : ∀ {net : Net}, net.Good → (∀ p ∈ l, p.1 ∈ net.g.nodes ∧ p.2 ∈ net.dom p.1 ∧ net.Tame p.1) →
    ∃ net', net.intervene l = (net', .ok ()) ∧ net'.Good ∧ Cut net (lastOf l) net' ∧ net'.m = { net.m with g := net'.g } ∧ net'.base = net.base := by
  induction l with
  | nil =>
    intro net hG _
    exact ⟨net, rfl, hG, ⟨rfl, by simp [lastOf], fun _ _ => .refl _, fun _ _ => rfl, fun _ => rfl, fun _ _ _ => rfl,
      fun _ _ _ _ _ => rfl, by simp [lastOf]⟩, rfl, rfl⟩
  | cons p l ih =>
    intro net hG hp
    obtain ⟨x, v⟩ := p
    obtain ⟨h1, h2, h3⟩ := hp (x, v) (by simp)
    obtain ⟨n1, k1, k2, k3, k4, k5, k6, k7, k8, k9⟩ := interveneOne_spec hG h1 h2 h3
    have hrest : ∀ p ∈ l, p.1 ∈ n1.g.nodes ∧ p.2 ∈ n1.dom p.1 ∧ n1.Tame p.1 := by
      intro p hpm
      obtain ⟨q1, q2, q3⟩ := hp p (by simp [hpm])
      refine ⟨by rw [k3.nodes]; exact q1, (k3.domain p.1 q1).mem_iff.2 q2, ?_⟩
      by_cases hne : p.1 = x
      · left; rw [hne]; exact k7
      rcases q3 with h | h
      · left; rw [k6 _ hne]; exact h
      · right
        intro y c hed
        by_cases e : y = x
        · subst e; exact k9 c
        · rw [k8 y e]; exact h y c ((k3.edges _ _).1 hed).1
    obtain ⟨n2, j1, j2, j3, j4, j5⟩ := ih k2 hrest
    have hkey : ∀ w, w ∉ (lastOf ((x, v) :: l)).map (·.1) ↔ w ≠ x ∧ w ∉ (lastOf l).map (·.1) := by
      intro w
      rw [mem_lastOf_keys, mem_lastOf_keys, List.map_cons, List.mem_cons, not_or]
    refine ⟨n2, ?_, j2, ⟨by rw [j3.nodes, k3.nodes], ?_, ?_, ?_, ?_, ?_, ?_, ?_⟩, by rw [j4, k4], by rw [j5, k5]⟩
    · simp only [intervene, k1]; exact j1
    · intro u w
      rw [j3.edges, k3.edges, hkey]
      simp only [List.map_cons, List.map_nil, List.mem_cons, List.not_mem_nil, or_false]
      tauto
    · intro w hw
      exact (j3.domain w (by rw [k3.nodes]; exact hw)).trans (k3.domain w hw)
    · intro w hw
      rw [hkey] at hw
      rw [j3.domainSame w hw.2, k6 w hw.1]
    · intro n
      rw [j3.roles, k3.roles]
    · intro w hwn hw
      rw [hkey] at hw
      rw [j3.undecided w (by rw [k3.nodes]; exact hwn) hw.2, k3.undecided w hwn (by simpa using hw.1)]
    · intro w hwn hw a ha
      rw [hkey] at hw
      rw [j3.others w (by rw [k3.nodes]; exact hwn) hw.2 a ((k3.inDom a).2 ha),
        k3.others w hwn (by simpa using hw.1) a ha]
    · intro y u hyu a ha
      unfold lastOf at hyu
      split_ifs at hyu with h
      · exact j3.fixed y u hyu a ((k3.inDom a).2 ha)
      · rcases List.mem_cons.1 hyu with e | e
        · cases e
          rw [j3.others x (by rw [k3.nodes]; exact h1) (by rw [mem_lastOf_keys]; exact h) a ((k3.inDom a).2 ha), k3.fixed x v (by simp) a ha]
        · exact j3.fixed y u e a ((k3.inDom a).2 ha)

/-- **C134** Any number of calls to `intervene`, on the same or other variables, amounts to one intervention in which each variable gets the value it was
given last: the calls succeed, the result is sound, it is the original with those variables cut off and fixed, all events have the probability they have
after that one intervention, and making that one call on the original gives the same probabilities. -/
theorem C134_repeated_interventions {net : Net} (hG : net.Good) {calls : List (List (Node × Outcome))}
    (hi : ∀ c ∈ calls, ∀ p ∈ c, p.1 ∈ net.g.nodes ∧ p.2 ∈ net.dom p.1 ∧ net.Tame p.1) :
    ∃ final, (final.map (·.1)).Nodup ∧ (∀ x v, (x, v) ∈ final ↔ ∃ pre post, calls.flatten = pre ++ (x, v) :: post ∧ x ∉ post.map (·.1)) ∧
      ∃ net' once, interveneCalls Net.intervene net calls = (net', .ok ()) ∧ net'.Good ∧ Cut net final net' ∧ (∀ E, net'.P E = net.PDo final E) ∧
        net.intervene final = (once, .ok ()) ∧ ∀ E, once.P E = net'.P E := by
  have hi' : ∀ p ∈ calls.flatten, p.1 ∈ net.g.nodes ∧ p.2 ∈ net.dom p.1 ∧ net.Tame p.1 := by
    intro p hp
    obtain ⟨c, hc, hpc⟩ := List.mem_flatten.1 hp
    exact hi c hc p hpc
  have hl : ∀ p ∈ lastOf calls.flatten, p.1 ∈ net.g.nodes ∧ p.2 ∈ net.dom p.1 ∧ net.Tame p.1 := by
    intro p hp
    obtain ⟨pre, post, e, _⟩ := mem_lastOf.1 (show (p.1, p.2) ∈ _ from hp)
    exact hi' p (by rw [e]; simp)
  obtain ⟨n, h1, h2, h3, _, _⟩ := repeated_spec hG hi'
  obtain ⟨o, o1, _, o3, _, _⟩ := C36_intervene_exact hG (lastOf_nodup _) hl
  have hn := fun p hp => (hl p hp).1
  exact ⟨lastOf calls.flatten, lastOf_nodup _, fun _ _ => mem_lastOf, n, o, by rw [interveneCalls_flatten]; exact h1, h2, h3, P_cut h3 hn, o1,
    fun E => by rw [P_cut o3 hn, P_cut h3 hn]⟩

theorem cbn_calls {net : Net} (h : Cbn.ListFree net.rels) (cs : List (List (Node × Outcome))) :
    interveneCalls Cbn.intervene net cs = interveneCalls Net.intervene net cs ∧ Cbn.ListFree (interveneCalls Net.intervene net cs).1.rels := by
  induction cs generalizing net with
  | nil => exact ⟨rfl, h⟩
  | cons c cs ih =>
    obtain ⟨e1, e2⟩ := Cbn.intervene_eq c h
    unfold interveneCalls
    rw [e1]
    generalize net.intervene c = y at e2
    obtain ⟨n, e | _⟩ := y
    · exact ⟨rfl, e2⟩
    · exact ih e2

/-- **C134** The same for plain networks, which stay ready for queries; expected values are those of the one intervention, whatever order sets use. -/
theorem C134_repeated_interventions_cbn {net : Net} (hR : Cbn.Ready net) {calls : List (List (Node × Outcome))}
    (hi : ∀ c ∈ calls, ∀ p ∈ c, p.1 ∈ net.g.nodes ∧ p.2 ∈ net.dom p.1 ∧ net.Tame p.1) :
    ∃ final, (final.map (·.1)).Nodup ∧ (∀ x v, (x, v) ∈ final ↔ ∃ pre post, calls.flatten = pre ++ (x, v) :: post ∧ x ∉ post.map (·.1)) ∧
      ∃ net', interveneCalls Cbn.intervene net calls = (net', .ok ()) ∧ Cbn.Ready net' ∧ (∀ E, net'.P E = net.PDo final E) ∧
        ∀ v ∈ net.g.nodes, Averages net' v [] [] (net.Mean final [] v) := by
  have hi' : ∀ p ∈ calls.flatten, p.1 ∈ net.g.nodes ∧ p.2 ∈ net.dom p.1 ∧ net.Tame p.1 := by
    intro p hp
    obtain ⟨c, hc, hpc⟩ := List.mem_flatten.1 hp
    exact hi c hc p hpc
  have hl : ∀ p ∈ lastOf calls.flatten, p.1 ∈ net.g.nodes ∧ p.2 ∈ net.dom p.1 ∧ net.Tame p.1 := by
    intro p hp
    obtain ⟨pre, post, e, _⟩ := mem_lastOf.1 (show (p.1, p.2) ∈ _ from hp)
    exact hi' p (by rw [e]; simp)
  obtain ⟨n, h1, h2, h3, h4, h5⟩ := repeated_spec hR.good hi'
  have hP := P_cut h3 (fun p hp => (hl p hp).1)
  obtain ⟨e1, e2⟩ := cbn_calls hR.plain.lists calls
  rw [interveneCalls_flatten, h1] at e1 e2
  have hR' : Cbn.Ready n := ⟨⟨by rw [h4, hR.plain.roles], by rw [h5]; exact hR.plain.base, e2⟩, h2,
    h3.normalised hR.good hR.normalised (fun p hp => (hl p hp).2.1)⟩
  refine ⟨lastOf calls.flatten, lastOf_nodup _, fun _ _ => mem_lastOf, n, e1, hR', hP, fun v hv ord hord => ?_⟩
  have ho : ord [v] = [v] := List.perm_singleton.1 (hord [v])
  rw [C101_expected_value hR' hord (int := []) (ctx := []) ⟨by simp, by simp⟩ (by simp) (by simp) (by simpa [h3.nodes] using hv) (by simp)
    (by intro a ha b hb; rw [List.mem_singleton] at ha hb; subst ha hb; exact .refl) (by rw [PDo_nil, P_nil hR'.usable]; decide), ho]
  simp only [List.map_cons, List.map_nil, Except.ok.injEq, List.cons.injEq, and_true]
  unfold Mean
  simp only [PDo_nil, hP]
  exact ((h3.domain v hv).map _).sum_eq

/-- **C134** In `get_minimal_cbn`, after any number of calls `intervene({"A": a})`, the average of `B` is the last `a`. -/
theorem C134_minimal_cbn : ∃ net, minimalCbn = .ok net ∧ ∀ (as : List Outcome) (a : Outcome), (∀ b ∈ as ++ [a], b ∈ [(0 : Outcome), 1]) →
    ∃ net', interveneCalls Cbn.intervene net ((as ++ [a]).map (fun b => [("A", b)])) = (net', .ok ()) ∧ Averages net' "B" [] [] a := by
  refine ⟨_, minimal_ready.1, fun as a h => ?_⟩
  have hA : "A" ∈ (netOf minimalCbn).g.nodes ∧ "B" ∈ (netOf minimalCbn).g.nodes ∧ (netOf minimalCbn).dom "A" = [0, 1] := by decide +kernel
  have hm : ∀ b ∈ [(0 : Outcome), 1], (netOf minimalCbn).Mean [("A", b)] [] "B" = b := by decide +kernel
  obtain ⟨final, f1, f2, net', f3, _, _, f4⟩ := C134_repeated_interventions_cbn minimal_ready.2 (calls := (as ++ [a]).map (fun b => [("A", b)])) (by
    intro c hc p hp
    obtain ⟨b, hb, rfl⟩ := List.mem_map.1 hc
    rw [List.mem_singleton] at hp
    subst hp
    exact ⟨hA.1, by rw [hA.2.2]; exact h b hb, Or.inl (by rw [hA.2.2]; decide +kernel)⟩)
  have hfl : ((as ++ [a]).map (fun b => [(("A" : Node), b)])).flatten = as.map (fun b => ("A", b)) ++ [("A", a)] := by
    clear f2 f3 h
    induction as with
    | nil => rfl
    | cons b as ih => simp only [List.cons_append, List.map_cons, List.flatten_cons, ih, List.nil_append]
  rw [hfl] at f2
  have hin : ("A", a) ∈ final := (f2 "A" a).2 ⟨as.map (fun b => ("A", b)), [], rfl, by simp⟩
  have hkey : ∀ k ∈ final.map (·.1), k = "A" := by
    intro k hk
    obtain ⟨⟨x, v⟩, hq, rfl⟩ := List.mem_map.1 hk
    obtain ⟨pre, post, e, _⟩ := (f2 x v).1 hq
    have : (x, v) ∈ as.map (fun b => (("A" : Node), b)) ++ [("A", a)] := by rw [e]; simp
    simp only [List.mem_append, List.mem_map, List.mem_singleton, Prod.mk.injEq] at this
    rcases this with ⟨_, _, q, _⟩ | ⟨q, _⟩
    · exact q.symm
    · exact q
  have hlast : final = [("A", a)] := by
    match final, f1, hin, hkey with
    | [p], _, hin, _ => rw [List.mem_singleton.1 hin]
    | p :: q :: l, f1, _, hkey =>
      have e1 := hkey p.1 (by simp)
      have e2 := hkey q.1 (by simp)
      simp [e1, e2] at f1
  refine ⟨net', f3, ?_⟩
  have := f4 "B" hA.2.1
  rw [hlast, hm a (h a (by simp))] at this
  exact this

end Verif
