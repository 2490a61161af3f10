import Verif.Model.CondExp
import Verif.Lemmas.Optimal
import Verif.Props.Cpd

/-!
# Assignments that change a domain; `impute_conditional_expectation_decision`
-/

namespace Verif

open Graph Relation Macid Net

namespace Net

/-! ### what an assignment leaves alone -/

/-- the same CPD and domain at a node -/
def SameAt (n n' : Net) (w : Node) : Prop := n'.cpds.get? w = n.cpds.get? w ∧ n'.domain.get? w = n.domain.get? w

theorem SameAt.rfl' (n : Net) (w : Node) : SameAt n n w := ⟨rfl, rfl⟩

theorem SameAt.trans {n1 n2 n3 : Net} {w : Node} (h1 : SameAt n1 n2 w) (h2 : SameAt n2 n3 w) : SameAt n1 n3 w :=
  ⟨h2.1.trans h1.1, h2.2.trans h1.2⟩

theorem stage_same {net : Net} {v w : Node} {r : Rel} (h : w ≠ v) : SameAt net (stage net v r) w := by
  refine ⟨?_, rfl⟩
  rw [stage_cpds, if_neg h]

theorem put_same {net : Net} {v w : Node} {r : Rel} {c : Cpd} (hc : c.var = v) (h : w ≠ v) : SameAt net (put net v r c) w := by
  refine ⟨?_, ?_⟩
  · rw [put_cpds, if_neg h]
  · rw [put_domain, if_neg h]

/-- A successful assignment changes no CPD and no domain but those of the node and its descendants. -/
theorem setItem_frame {g : Graph} : ∀ (n : Nat) {net net' : Net} {v : Node} {r : Rel}, net.g = g → setItem n net v r = (net', .ok ()) →
    ∀ w, ¬ g.DescEq v w → SameAt net net' w
  | 0, net, net', v, r, _, h => by simp [setItem] at h
  | n + 1, net, net', v, r, hg, h => by
    intro w hw
    have hwv : w ≠ v := by rintro rfl; exact hw .refl
    rcases setItem_cases n net v r with ⟨_, h2⟩ | ⟨e, _, _, h2⟩ | ⟨c, _, ⟨_, h2⟩ | ⟨_, _, h2⟩ | ⟨_, h3, _, _, h2⟩ | ⟨_, h3, _, h2⟩⟩
    all_goals rw [h2] at h
    · simp only [Prod.mk.injEq, and_true] at h
      subst h
      exact stage_same hwv
    · simp at h
    · simp at h
    · simp at h
    · simp only [Prod.mk.injEq, and_true] at h
      subst h
      exact put_same h3 hwv
    · have loop : ∀ (cs : List Node) {m : Net}, m.g = g → (∀ c ∈ cs, g.Edge v c) → setLoop (setItem n) m cs = (net', .ok ()) → SameAt m net' w := by
        intro cs
        induction cs with
        | nil =>
          intro m _ _ hm
          simp only [setLoop, Prod.mk.injEq, and_true] at hm
          subst hm
          exact .rfl' _ _
        | cons x cs ih =>
          intro m hmg hcs hm
          unfold setLoop at hm
          cases hx : m.rels.get? x with
          | none =>
            simp only [hx] at hm
            exact ih hmg (fun c hc => hcs c (by simp [hc])) hm
          | some rx =>
            simp only [hx] at hm
            generalize hst : setItem n m x rx = st at hm
            obtain ⟨m', y⟩ := st
            cases y with
            | error e => simp at hm
            | ok u =>
              have hm' : m'.g = g := by
                have := (setItem_m n m x rx).1
                rw [hst] at this
                show m'.m.g = g
                rw [this]
                exact hmg
              exact (setItem_frame n hmg hst w (fun q => hw (.head (hcs x (by simp)) q))).trans
                (ih hm' (fun c hc => hcs c (by simp [hc])) hm)
      exact (put_same h3 hwv).trans (loop _ (by show net.g = g; exact hg) (fun c hc => by rw [← hg]; exact Graph.mem_children.1 hc) h)

/-- after a successful assignment of something computed, the CPD of the node is the computed one -/
theorem setItem_own {n : Nat} {net net' : Net} (hw : net.g.WF) {v : Node} {r : Rel} (h : setItem (n + 1) net v r = (net', .ok ()))
    (hr : (stage net v r).toCpd v r ≠ .error .parentsNotReady) :
    ∃ c, (stage net v r).toCpd v r = .ok c ∧ c.var = v ∧ net'.cpds.get? v = some c ∧ net'.domain.get? v = some c.domain := by
  rcases setItem_cases n net v r with ⟨h1, h2⟩ | ⟨e, _, _, h2⟩ | ⟨c, hc, ⟨_, h2⟩ | ⟨_, _, h2⟩ | ⟨_, h3, _, _, h2⟩ | ⟨_, h3, _, h2⟩⟩
  all_goals rw [h2] at h
  · exact absurd h1 hr
  · simp at h
  · simp at h
  · simp at h
  · simp only [Prod.mk.injEq, and_true] at h
    subst h
    refine ⟨c, hc, h3, ?_, ?_⟩
    · rw [put_cpds, if_pos rfl]
    · rw [put_domain, if_pos rfl]
  · refine ⟨c, hc, h3, ?_⟩
    have key : ∀ (cs : List Node) {m : Net}, m.g = net.g → (∀ x ∈ cs, net.g.Edge v x) → setLoop (setItem n) m cs = (net', .ok ()) → SameAt m net' v := by
      intro cs
      induction cs with
      | nil =>
        intro m _ _ hm
        simp only [setLoop, Prod.mk.injEq, and_true] at hm
        subst hm
        exact .rfl' _ _
      | cons x cs ih =>
        intro m hmg hcs hm
        unfold setLoop at hm
        cases hx : m.rels.get? x with
        | none =>
          simp only [hx] at hm
          exact ih hmg (fun c hc => hcs c (by simp [hc])) hm
        | some rx =>
          simp only [hx] at hm
          generalize hst : setItem n m x rx = st at hm
          obtain ⟨m', y⟩ := st
          cases y with
          | error e => simp at hm
          | ok u =>
            have hm' : m'.g = net.g := by
              have := (setItem_m n m x rx).1
              rw [hst] at this
              show m'.m.g = net.g
              rw [this]
              exact hmg
            exact (setItem_frame n hmg hst v (fun q => hw.acyclic v (TransGen.head' (hcs x (by simp)) q))).trans
              (ih hm' (fun c hc => hcs c (by simp [hc])) hm)
    obtain ⟨k1, k2⟩ := key _ (m := put net v r c) rfl (fun x hx => Graph.mem_children.1 hx) h
    refine ⟨?_, ?_⟩
    · rw [k1, put_cpds, if_pos rfl]
    · rw [k2, put_domain, if_pos rfl]

/-! ### a query never reports missing parents -/

theorem addEdges_ready : ∀ (es : List (Node × Node)) (g : Graph), g.addEdges es ≠ .error .parentsNotReady
  | [], g => by simp [Graph.addEdges]
  | (u, v) :: es, g => by
    unfold Graph.addEdges Graph.addEdge
    split_ifs
    · simp
    · simp
    · exact addEdges_ready es _

theorem mechLoop_ready : ∀ (ns : List Node) (mg : Graph), mechLoop mg ns ≠ .error .parentsNotReady
  | [], mg => by simp [mechLoop]
  | n :: ns, mg => by
    unfold mechLoop Graph.addEdge
    split_ifs
    · simp
    · simp
    · simp
    · exact mechLoop_ready ns _

theorem mechGraph_ready (g : Graph) : mechGraph g ≠ .error .parentsNotReady := by
  unfold mechGraph
  have := addEdges_ready g.edgesView Graph.empty
  unfold Graph.ofEdges
  generalize Graph.empty.addEdges g.edgesView = r at this
  cases r with
  | error e => simpa using this
  | ok mg => exact mechLoop_ready _ _

theorem isDConnected_ready (pick : Pick) (g : Graph) (s t : Node) (Z : List Node) : isDConnected pick g s t Z ≠ .error .parentsNotReady := by
  unfold isDConnected activeTrailNodes checkAll
  split_ifs <;> simp

theorem forPy_ready {α : Type} {f : α → Py Unit} (h : ∀ x, f x ≠ .error .parentsNotReady) : ∀ l, forPy f l ≠ .error .parentsNotReady
  | [] => by simp [forPy]
  | x :: l => by
    unfold forPy
    have := h x
    generalize f x = r at this
    cases r with
    | error e => simpa using this
    | ok _ => exact forPy_ready h l

theorem getCpd_ready (net : Net) (v : Node) : net.getCpd v ≠ .error .parentsNotReady := by
  unfold getCpd
  split_ifs <;> simp

theorem policiesOk_ready (pick : Pick) (net : Net) (q : List Node) (ctx : List (Node × Outcome)) :
    net.policiesOk pick q ctx [] ≠ .error .parentsNotReady := by
  unfold policiesOk
  have := mechGraph_ready net.g
  generalize mechGraph net.g = r at this
  cases r with
  | error e => simpa using this
  | ok mg =>
    simp only [List.map_nil, cutMech]
    refine forPy_ready (fun d => forPy_ready (fun qn => ?_) _) _
    unfold policyCheck
    have h1 := isDConnected_ready pick mg (mec d) qn (ctx.map (·.1) ++ [])
    generalize isDConnected pick mg (mec d) qn (ctx.map (·.1) ++ []) = r1 at h1
    have h2 := net.getCpd_ready d
    generalize net.getCpd d = r2 at h2
    rcases r1 with e | _ | _
    · simpa using h1
    · simp
    · rcases r2 with e | _ | c
      · simpa using h2
      · simp
      · simp only
        split_ifs <;> simp

theorem checkContext_ready (net : Net) : ∀ (ctx : List (Node × Outcome)), net.checkContext ctx ≠ .error .parentsNotReady
  | [] => by simp [checkContext]
  | (v, x) :: ctx => by
    unfold checkContext
    have h2 := net.getCpd_ready v
    generalize net.getCpd v = r2 at h2
    rcases r2 with e | _ | c
    · simpa using h2
    · simp
    · simp only
      split_ifs
      · simp
      · exact checkContext_ready net ctx
      · simp

theorem checkContextCbn_ready (net : Net) : ∀ (ctx : List (Node × Outcome)), net.checkContextCbn ctx ≠ .error .parentsNotReady
  | [] => by simp [checkContextCbn]
  | (v, x) :: ctx => by
    unfold checkContextCbn
    split
    · simp
    · split_ifs
      · exact checkContextCbn_ready net ctx
      · simp

theorem queryOn_ready (ord : List Node → List Node) (net : Net) (q : List Node) (ctx : List (Node × Outcome)) :
    (net.queryOn ord q ctx).2 ≠ .error .parentsNotReady := by
  unfold queryOn
  split_ifs
  · simp
  · simp only
    split
    · rename_i e heq
      unfold isConnected at heq
      split at heq
      · simp only [Except.error.injEq] at heq
        subst heq
        simp
      · simp at heq
    · simp
    · simp only
      unfold infer
      split_ifs <;> simp

theorem expectedValue_ready (pick : Pick) (ord : List Node → List Node) (net : Net) (q : List Node) (ctx : List (Node × Outcome)) :
    (net.expectedValue pick ord q ctx []).2 ≠ .error .parentsNotReady := by
  have hq : (net.query pick ord q ctx []).2 ≠ .error .parentsNotReady := by
    unfold query queryCbn queryCore
    have h1 := net.checkContext_ready ctx
    generalize net.checkContext ctx = r1 at h1
    have h2 := policiesOk_ready pick net q ctx
    generalize net.policiesOk pick q ctx [] = r2 at h2
    have h3 := net.checkContextCbn_ready ctx
    generalize net.checkContextCbn ctx = r3 at h3
    cases r1 with
    | error e => simpa using h1
    | ok _ =>
      cases r2 with
      | error e => simpa using h2
      | ok _ =>
        cases r3 with
        | error e => simpa using h3
        | ok _ => exact queryOn_ready ord net q ctx
  unfold expectedValue
  generalize net.query pick ord q ctx [] = r at hq
  obtain ⟨s, r⟩ := r
  cases r with
  | error e => simpa using hq
  | ok f =>
    simp only [evOf]
    split_ifs <;> simp

theorem condExp_ready (pick : Pick) (ord : List Node → List Node) (y : Node) (ps : List Node) (s : Net) (vals : List Outcome) :
    (condExp pick ord y ps s vals).2 ≠ .error .parentsNotReady := by
  unfold condExp
  split_ifs
  · simp
  · have h := expectedValue_ready pick ord s [y] (ps.zip vals)
    generalize s.expectedValue pick ord [y] (ps.zip vals) [] = r at h
    obtain ⟨s1, r⟩ := r
    cases r with
    | error e => simpa using h
    | ok l =>
      simp only
      split <;> simp

theorem condFunc_honest (pick : Pick) (ord : List Node → List Node) (y : Node) (ps : List Node) (s : Net) (t : List (List Outcome × Outcome)) :
    Honest (.func (condFunc pick ord y ps s t)) := by
  intro pv
  unfold condFunc
  simp only
  split
  · simp
  · have h := condExp_ready pick ord y ps s (ps.map (fun p => (pv p).getD 0))
    generalize (condExp pick ord y ps s (ps.map (fun p => (pv p).getD 0))).2 = r at h
    cases r with
    | error e => simpa using h
    | ok x => simp

/-! ### the table -/

section
variable {c : Net} (hG : c.Good) (hN : c.Normalised) {y : Node} {pick : Pick} {ord : List Node → List Node} (hord : ∀ l, (ord l).Perm l)
include hG hN hord

theorem condExp_spec {ps : List Node} (hps : ∀ p ∈ ps, p ∈ keepOf c [y]) {s : Net} (hs : Sess c [y] s) (vals : List Outcome) :
    Sess c [y] (condExp pick ord y ps s vals).1 ∧ ∀ x, (condExp pick ord y ps s vals).2 = .ok x →
      (y ∈ ps → x = (pvOf ps vals y).getD 0) ∧
      (y ∉ ps → y ∈ c.g.nodes ∧ c.P (Ctx (ps.zip vals)) ≠ 0 ∧ x = c.Mean [] (ps.zip vals) y) := by
  unfold condExp
  by_cases hy : y ∈ ps
  · rw [if_pos hy]
    refine ⟨hs, fun x hx => ⟨fun _ => ?_, fun h => absurd hy h⟩⟩
    simp only [Except.ok.injEq] at hx
    exact hx.symm
  · rw [if_neg hy]
    have hs' := hs.step hG pick ord (ps.zip vals)
    have hval := fun l => hs.value (l := l) hG hN (pick := pick) hord (ctx := ps.zip vals) (fun p hp _ => hps p.1 (List.of_mem_zip hp).1)
    generalize s.expectedValue pick ord [y] (ps.zip vals) [] = z at hs' hval
    obtain ⟨s1, r⟩ := z
    cases r with
    | error e => exact ⟨hs', by simp⟩
    | ok l =>
      obtain ⟨_, h2, h3, h4⟩ := hval l rfl
      refine ⟨hs', fun x hx => ⟨fun h => absurd h hy, fun _ => ⟨h2 y (by simp), h3, ?_⟩⟩⟩
      rw [List.perm_singleton.1 (hord [y])] at h4
      subst h4
      simpa using hx.symm

theorem condTable_spec {ps : List Node} (hps : ∀ p ∈ ps, p ∈ keepOf c [y]) : ∀ (cs : List (List Outcome)) {s : Net}, Sess c [y] s →
    Sess c [y] (condTable pick ord y ps s cs).1 ∧ ∀ e ∈ (condTable pick ord y ps s cs).2,
      (y ∈ ps → e.2 = (pvOf ps e.1 y).getD 0) ∧
      (y ∉ ps → y ∈ c.g.nodes ∧ c.P (Ctx (ps.zip e.1)) ≠ 0 ∧ e.2 = c.Mean [] (ps.zip e.1) y)
  | [], s, hs => ⟨hs, by simp [condTable]⟩
  | vals :: cs, s, hs => by
    obtain ⟨a1, a2⟩ := condExp_spec hG hN (pick := pick) hord hps hs vals
    unfold condTable
    generalize condExp pick ord y ps s vals = z at a1 a2
    obtain ⟨s1, r⟩ := z
    cases r with
    | error e => exact ⟨a1, by simp⟩
    | ok x =>
      obtain ⟨i1, i2⟩ := condTable_spec hps cs a1
      simp only
      generalize condTable pick ord y ps s1 cs = w at i1 i2
      obtain ⟨s2, t⟩ := w
      refine ⟨i1, fun e he => ?_⟩
      rcases List.mem_cons.1 he with rfl | he
      · exact a2 x rfl
      · exact i2 e he

theorem condFunc_spec {ps : List Node} (hn : ps.Nodup) (hps : ∀ p ∈ ps, p ∈ keepOf c [y]) (cs : List (List Outcome)) {vals : List Outcome}
    (hl : ps.length = vals.length) {ret : Ret}
    (h : condFunc pick ord y ps (condTable pick ord y ps c cs).1 (condTable pick ord y ps c cs).2 (pvOf ps vals) = .ok ret) :
    ∃ x, ret = .val x ∧ (y ∈ ps → x = (pvOf ps vals y).getD 0) ∧
      (y ∉ ps → y ∈ c.g.nodes ∧ c.P (Ctx (ps.zip vals)) ≠ 0 ∧ x = c.Mean [] (ps.zip vals) y) := by
  obtain ⟨t1, t2⟩ := condTable_spec hG hN (pick := pick) hord hps cs (Sess.refl hG hN [y])
  have hmap : ps.map (fun p => (pvOf ps vals p).getD 0) = vals := by
    apply List.ext_getElem
    · simpa using hl
    · intro i h1 h2
      simp only [List.getElem_map, pvOf]
      rw [get?_zip hn (by simpa using h1) h2]
      rfl
  unfold condFunc at h
  simp only [hmap] at h
  generalize hg : Dict.get? (condTable pick ord y ps c cs).2 vals = o at h
  cases o with
  | some x =>
    simp only [Except.ok.injEq] at h
    exact ⟨x, h.symm, t2 (vals, x) (Dict.mem_of_get? hg)⟩
  | none =>
    simp only at h
    obtain ⟨_, a2⟩ := condExp_spec hG hN (pick := pick) hord hps t1 vals
    generalize (condExp pick ord y ps (condTable pick ord y ps c cs).1 vals).2 = r at h a2
    cases r with
    | error e => simp at h
    | ok x =>
      simp only [Except.ok.injEq] at h
      exact ⟨x, h.symm, a2 x rfl⟩

end

end Net
end Verif
