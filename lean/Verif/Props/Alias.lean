import Verif.Model.Alias
import Verif.Props.Structure

/-!
# C92: diagrams do not influence each other, unless they were built from the same lists

Specification: the same programs over values.  A diagram is a value of the model used everywhere else, with its own lists.
-/

namespace Verif
open Macid

/-- the same statements when every diagram is a separate value -/
def execValue (ms : List Macid) : Stmt → List Macid × Py Unit
  | .create edges ad au =>
    match Macid.init edges ad au with
    | .error e => (ms, .error e)
    | .ok m => (ms ++ [m], .ok ())
  | .copy i cid =>
    match ms[i]? with
    | none => (ms, .error .index)
    | some m =>
      match Macid.copyWithoutCpds (if cid then Macid.newCid else Macid.new) m with
      | .error e => (ms, .error e)
      | .ok m' => (ms ++ [m'], .ok ())
  | .call i op =>
    match ms[i]? with
    | none => (ms, .error .index)
    | some m => (ms.set i (m.runOp op).1, (m.runOp op).2)

/-- a program over values -/
def execValues (ms : List Macid) : List Stmt → List Macid × List (Py Unit)
  | [] => (ms, [])
  | s :: ss => ((execValues (execValue ms s).1 ss).1, (execValue ms s).2 :: (execValues (execValue ms s).1 ss).2)

/-! ### reading and writing lists -/

theorem get?_listsOf (h : Heap) (d : Dict Agent Addr) (a : Agent) :
    (listsOf h d).get? a = (d.get? a).map (fun p => h.getD p []) := by
  induction d with
  | nil => rfl
  | cons p d ih =>
    obtain ⟨k, q⟩ := p
    show (if k = a then _ else _) = Option.map _ (if k = a then _ else _)
    split
    · rfl
    · exact ih

theorem listsOf_congr {h h' : Heap} {d : Dict Agent Addr} (e : ∀ p ∈ d.map (·.2), h'.getD p [] = h.getD p []) :
    listsOf h' d = listsOf h d := by
  unfold listsOf
  refine List.map_congr_left (fun p hp => ?_)
  rw [e p.2 (List.mem_map_of_mem hp)]

theorem getD_set_self {h : Heap} {p : Addr} (hp : p < h.length) (l : List Node) : (h.set p l).getD p [] = l := by
  simp [List.getD_eq_getElem?_getD, List.getElem?_set, hp]

theorem getD_set_ne {h : Heap} {p q : Addr} (hne : q ≠ p) (l : List Node) : (h.set p l).getD q [] = h.getD q [] := by
  simp [List.getD_eq_getElem?_getD, List.getElem?_set, Ne.symm hne]

theorem getD_append_left {h : Heap} {q : Addr} (k : Heap) (hq : q < h.length) : (h ++ k).getD q [] = h.getD q [] := by
  simp [List.getD_eq_getElem?_getD, List.getElem?_append_left hq]

theorem getD_append_self (h : Heap) (l : List Node) : (h ++ [l]).getD h.length [] = l := by
  simp [List.getD_eq_getElem?_getD]

theorem listsOf_set {h : Heap} {d : Dict Agent Addr} {a : Agent} {p : Addr} (hd : (d.map (·.2)).Nodup)
    (hp : d.get? a = some p) (hl : p < h.length) (l : List Node) :
    listsOf (h.set p l) d = (listsOf h d).set a l := by
  induction d with
  | nil => cases hp
  | cons q d ih =>
    obtain ⟨k, q⟩ := q
    have hd' := List.nodup_cons.1 hd
    by_cases hk : k = a
    · have hq : q = p := by simpa [Dict.get?, hk] using hp
      subst hq
      have h1 : listsOf (h.set q l) d = listsOf h d :=
        listsOf_congr (fun r hr => getD_set_ne (fun e => hd'.1 (by subst e; exact hr)) l)
      show (k, (h.set q l).getD q []) :: listsOf (h.set q l) d = if k = a then _ else _
      rw [if_pos hk, h1, getD_set_self hl]
      rfl
    · have hp' : Dict.get? d a = some p := by simpa [Dict.get?, hk] using hp
      have hne : q ≠ p := by
        rintro rfl
        exact hd'.1 (List.mem_map.2 ⟨(a, q), Dict.mem_of_get? hp', rfl⟩)
      show (k, (h.set p l).getD q []) :: listsOf (h.set p l) d = if k = a then _ else _
      rw [if_neg hk, ih hd'.2 hp', getD_set_ne hne]
      rfl

theorem listsOf_new {h : Heap} {d : Dict Agent Addr} {a : Agent} (hd : ∀ p ∈ d.map (·.2), p < h.length)
    (ha : d.get? a = none) (l : List Node) :
    listsOf (h ++ [l]) (d.set a h.length) = (listsOf h d).set a l := by
  induction d with
  | nil => simp [Dict.set, listsOf]
  | cons q d ih =>
    obtain ⟨k, q⟩ := q
    by_cases hk : k = a
    · simp [Dict.get?, hk] at ha
    · have ha' : Dict.get? d a = none := by simpa [Dict.get?, hk] using ha
      have := ih (fun p hp => hd p (List.mem_cons_of_mem _ hp)) ha'
      have hq : q < h.length := hd q List.mem_cons_self
      show listsOf (h ++ [l]) (if k = a then _ else _) = if k = a then _ else _
      rw [if_neg hk, if_neg hk]
      show (k, (h ++ [l]).getD q []) :: listsOf (h ++ [l]) (Dict.set d a h.length) = _
      rw [this, getD_append_left _ hq]
      rfl

theorem addrs_set {d : Dict Agent Addr} {a : Agent} (ha : d.get? a = none) (q : Addr) :
    (d.set a q).map (·.2) = d.map (·.2) ++ [q] := by
  induction d with
  | nil => rfl
  | cons x d ih =>
    obtain ⟨k, x⟩ := x
    by_cases hk : k = a
    · simp [Dict.get?, hk] at ha
    · have ha' : Dict.get? d a = none := by simpa [Dict.get?, hk] using ha
      show List.map _ (if k = a then _ else _) = _
      rw [if_neg hk, List.map_cons, ih ha']
      rfl

namespace RefMacid

/-- the object refers to existing list objects, and to none twice -/
structure Private (h : Heap) (o : RefMacid) : Prop where
  nodup : o.addrs.Nodup
  lt : ∀ p ∈ o.addrs, p < h.length

/-- what a call may do: change the lists of the object itself, and create new ones -/
structure Moves (h : Heap) (o : RefMacid) (h' : Heap) (o' : RefMacid) : Prop where
  grows : h.length ≤ h'.length
  keeps : ∀ p, p < h.length → p ∉ o.addrs → h'.getD p [] = h.getD p []
  own : ∀ p ∈ o'.addrs, p ∈ o.addrs ∨ h.length ≤ p
  priv : Private h' o'

theorem Moves.refl {h : Heap} {o : RefMacid} (hp : Private h o) : Moves h o h o :=
  ⟨le_rfl, fun _ _ _ => rfl, fun _ h => Or.inl h, hp⟩

theorem Moves.trans {h h1 h2 : Heap} {o o1 o2 : RefMacid} (a : Moves h o h1 o1) (b : Moves h1 o1 h2 o2) : Moves h o h2 o2 := by
  refine ⟨a.grows.trans b.grows, fun p hp hn => ?_, fun p hp => ?_, b.priv⟩
  · rw [b.keeps p (hp.trans_le a.grows) (fun hm => ?_), a.keeps p hp hn]
    rcases a.own p hm with h | h
    · exact hn h
    · omega
  · rcases b.own p hp with h | h
    · exact a.own p h
    · exact Or.inr (a.grows.trans h)

theorem Moves.write {h : Heap} {o o' : RefMacid} (hp : Private h o) (he : o'.addrs = o.addrs) {p : Addr} (hm : p ∈ o.addrs)
    (l : List Node) : Moves h o (h.set p l) o' := by
  refine ⟨by simp, fun q _ hn => getD_set_ne (fun e => hn (by subst e; exact hm)) l, fun q hq => Or.inl (he ▸ hq), ⟨he ▸ hp.nodup, ?_⟩⟩
  intro q hq
  rw [List.length_set]
  exact hp.lt q (he ▸ hq)

theorem Moves.same {h : Heap} {o o' : RefMacid} (hp : Private h o) (he : o'.addrs = o.addrs) : Moves h o h o' :=
  ⟨le_rfl, fun _ _ _ => rfl, fun _ hq => Or.inl (he ▸ hq), ⟨he ▸ hp.nodup, fun q hq => hp.lt q (he ▸ hq)⟩⟩

theorem Moves.alloc {h : Heap} {o o' : RefMacid} (hp : Private h o) (he : o'.addrs.Perm (h.length :: o.addrs)) (l : List Node) :
    Moves h o (h ++ [l]) o' := by
  refine ⟨by simp, fun q hq _ => getD_append_left _ hq, fun q hq => ?_, ⟨?_, ?_⟩⟩
  · rcases List.mem_cons.1 (he.mem_iff.1 hq) with rfl | h
    · exact Or.inr le_rfl
    · exact Or.inl h
  · refine he.nodup_iff.2 (List.nodup_cons.2 ⟨fun hm => ?_, hp.nodup⟩)
    exact absurd (hp.lt _ hm) (lt_irrefl _)
  · intro q hq
    rcases List.mem_cons.1 (he.mem_iff.1 hq) with rfl | h
    · simp
    · rw [List.length_append]
      exact Nat.lt_add_right _ (hp.lt q h)

theorem mem_addrs_dec {o : RefMacid} {a : Agent} {p : Addr} (h : o.agentDecisions.get? a = some p) : p ∈ o.addrs :=
  List.mem_append_left _ (List.mem_map.2 ⟨_, Dict.mem_of_get? h, rfl⟩)

theorem mem_addrs_util {o : RefMacid} {a : Agent} {p : Addr} (h : o.agentUtilities.get? a = some p) : p ∈ o.addrs :=
  List.mem_append_right _ (List.mem_map.2 ⟨_, Dict.mem_of_get? h, rfl⟩)

/-- writing a list of decisions -/
theorem view_write_dec {h : Heap} {o : RefMacid} (hp : Private h o) {a : Agent} {p : Addr} (e : o.agentDecisions.get? a = some p)
    (l : List Node) : o.view (h.set p l) = { o.view h with agentDecisions := (listsOf h o.agentDecisions).set a l } := by
  have hm := mem_addrs_dec e
  have hn := List.nodup_append.1 hp.nodup
  have h2 : listsOf (h.set p l) o.agentUtilities = listsOf h o.agentUtilities :=
    listsOf_congr (fun q hq => getD_set_ne (fun e' => hn.2.2 p (List.mem_map.2 ⟨_, Dict.mem_of_get? e, rfl⟩) q hq e'.symm) l)
  unfold view
  rw [listsOf_set hn.1 e (hp.lt p hm), h2]

/-- writing a list of utilities -/
theorem view_write_util {h : Heap} {o : RefMacid} (hp : Private h o) {a : Agent} {p : Addr} (e : o.agentUtilities.get? a = some p)
    (l : List Node) : o.view (h.set p l) = { o.view h with agentUtilities := (listsOf h o.agentUtilities).set a l } := by
  have hm := mem_addrs_util e
  have hn := List.nodup_append.1 hp.nodup
  have h2 : listsOf (h.set p l) o.agentDecisions = listsOf h o.agentDecisions :=
    listsOf_congr (fun q hq => getD_set_ne (fun e' => hn.2.2 q hq p (List.mem_map.2 ⟨_, Dict.mem_of_get? e, rfl⟩) e') l)
  unfold view
  rw [listsOf_set hn.2.1 e (hp.lt p hm), h2]

/-- a call on the references does what the call on values does -/
def Does (h : Heap) (o : RefMacid) (r : Heap × RefMacid × Py Unit) (v : Macid × Py Unit) : Prop :=
  (r.2.1.view r.1, r.2.2) = v ∧ Moves h o r.1 r.2.1

theorem makeChance_does {h : Heap} {o : RefMacid} (hp : Private h o) (n : Node) :
    Does h o (makeChance h o n) ((o.view h).makeChance n) := by
  unfold makeChance Macid.makeChance
  show Does h o (if n ∉ o.g.nodes then _ else _) (if n ∉ o.g.nodes then _ else _)
  by_cases hn : n ∉ o.g.nodes
  · rw [if_pos hn, if_pos hn]; exact ⟨rfl, Moves.refl hp⟩
  · rw [if_neg hn, if_neg hn]
    show Does h o (match o.decisionAgent.get? n with | some _ => _ | none => _) (match o.decisionAgent.get? n with | some _ => _ | none => _)
    cases e1 : o.decisionAgent.get? n with
    | some a =>
      simp only []
      show Does h o _ (match (listsOf h o.agentDecisions).get? a with | none => _ | some _ => _)
      rw [get?_listsOf]
      cases e2 : o.agentDecisions.get? a with
      | none => exact ⟨rfl, Moves.same hp rfl⟩
      | some p =>
        simp only [Option.map_some]
        by_cases hm : n ∈ h.getD p []
        · rw [if_pos hm, if_pos hm]
          refine ⟨?_, by apply Moves.write hp _ (mem_addrs_dec e2); rfl⟩
          have hp' : Private h { o with decisionAgent := o.decisionAgent.erase n } := ⟨hp.nodup, hp.lt⟩
          show (({ o with decisionAgent := o.decisionAgent.erase n } : RefMacid).view _, _) = _
          rw [view_write_dec hp' e2]
          rfl
        · rw [if_neg hm, if_neg hm]; exact ⟨rfl, Moves.same hp rfl⟩
    | none =>
      simp only []
      show Does h o (match o.utilityAgent.get? n with | some _ => _ | none => _) (match o.utilityAgent.get? n with | some _ => _ | none => _)
      cases e1 : o.utilityAgent.get? n with
      | none => exact ⟨rfl, Moves.refl hp⟩
      | some a =>
        simp only []
        show Does h o _ (match (listsOf h o.agentUtilities).get? a with | none => _ | some _ => _)
        rw [get?_listsOf]
        cases e2 : o.agentUtilities.get? a with
        | none => exact ⟨rfl, Moves.same hp rfl⟩
        | some p =>
          simp only [Option.map_some]
          by_cases hm : n ∈ h.getD p []
          · rw [if_pos hm, if_pos hm]
            refine ⟨?_, by apply Moves.write hp _ (mem_addrs_util e2); rfl⟩
            have hp' : Private h { o with utilityAgent := o.utilityAgent.erase n } := ⟨hp.nodup, hp.lt⟩
            show (({ o with utilityAgent := o.utilityAgent.erase n } : RefMacid).view _, _) = _
            rw [view_write_util hp' e2]
            rfl
          · rw [if_neg hm, if_neg hm]; exact ⟨rfl, Moves.same hp rfl⟩

theorem makeDecision_does {h : Heap} {o : RefMacid} (hp : Private h o) (n : Node) (a : Agent) :
    Does h o (makeDecision h o n a) ((o.view h).makeDecision n a) := by
  obtain ⟨h1, h2⟩ := makeChance_does hp n
  unfold makeDecision Macid.makeDecision
  rw [← h1]
  rcases hr : makeChance h o n with ⟨h', o', e | u⟩
  · rw [hr] at h1 h2
    exact ⟨rfl, h2⟩
  · rw [hr] at h1 h2
    simp only [appendRole]
    show Does h o _ ({ o'.view h' with
      agentDecisions := (match (listsOf h' o'.agentDecisions).get? a with | none => _ | some _ => _), decisionAgent := _ }, _)
    rw [get?_listsOf]
    have hp2 := h2.priv
    cases e2 : o'.agentDecisions.get? a with
    | none =>
      simp only [Option.map_none]
      refine ⟨?_, h2.trans (Moves.alloc hp2 ?_ _)⟩
      · have hl : ∀ p ∈ o'.agentDecisions.map (·.2), p < h'.length := fun p hp => hp2.lt p (List.mem_append_left _ hp)
        have hu : listsOf (h' ++ [[n]]) o'.agentUtilities = listsOf h' o'.agentUtilities :=
          listsOf_congr (fun p hp => getD_append_left _ (hp2.lt p (List.mem_append_right _ hp)))
        unfold view
        simp only [listsOf_new hl e2, hu]
      · unfold addrs
        rw [addrs_set e2]
        simp
    | some p =>
      simp only [Option.map_some]
      refine ⟨?_, h2.trans (by apply Moves.write hp2 _ (mem_addrs_dec e2); rfl)⟩
      have hp' : Private h' { o' with decisionAgent := o'.decisionAgent.set n a } := ⟨hp2.nodup, hp2.lt⟩
      show (({ o' with decisionAgent := o'.decisionAgent.set n a } : RefMacid).view _, _) = _
      rw [view_write_dec hp' e2]
      rfl

theorem makeUtility_does {h : Heap} {o : RefMacid} (hp : Private h o) (n : Node) (a : Agent) :
    Does h o (makeUtility h o n a) ((o.view h).makeUtility n a) := by
  obtain ⟨h1, h2⟩ := makeChance_does hp n
  unfold makeUtility Macid.makeUtility
  rw [← h1]
  rcases hr : makeChance h o n with ⟨h', o', e | u⟩
  · rw [hr] at h1 h2
    exact ⟨rfl, h2⟩
  · rw [hr] at h1 h2
    simp only [appendRole]
    show Does h o _ ({ o'.view h' with
      agentUtilities := (match (listsOf h' o'.agentUtilities).get? a with | none => _ | some _ => _), utilityAgent := _ }, _)
    rw [get?_listsOf]
    have hp2 := h2.priv
    cases e2 : o'.agentUtilities.get? a with
    | none =>
      simp only [Option.map_none]
      refine ⟨?_, h2.trans (Moves.alloc hp2 ?_ _)⟩
      · have hl : ∀ p ∈ o'.agentUtilities.map (·.2), p < h'.length := fun p hp => hp2.lt p (List.mem_append_right _ hp)
        have hu : listsOf (h' ++ [[n]]) o'.agentDecisions = listsOf h' o'.agentDecisions :=
          listsOf_congr (fun p hp => getD_append_left _ (hp2.lt p (List.mem_append_left _ hp)))
        unfold view
        simp only [listsOf_new hl e2, hu]
      · unfold addrs
        rw [addrs_set e2, ← List.append_assoc]
        exact List.perm_append_singleton _ _
    | some p =>
      simp only [Option.map_some]
      refine ⟨?_, h2.trans (by apply Moves.write hp2 _ (mem_addrs_util e2); rfl)⟩
      have hp' : Private h' { o' with utilityAgent := o'.utilityAgent.set n a } := ⟨hp2.nodup, hp2.lt⟩
      show (({ o' with utilityAgent := o'.utilityAgent.set n a } : RefMacid).view _, _) = _
      rw [view_write_util hp' e2]
      rfl

theorem runOp_does {h : Heap} {o : RefMacid} (hp : Private h o) (op : RoleOp) : Does h o (runOp h o op) ((o.view h).runOp op) := by
  cases op with
  | makeDecision n a => exact makeDecision_does hp n a
  | makeUtility n a => exact makeUtility_does hp n a
  | makeChance n => exact makeChance_does hp n

/-- the object is new: all its list objects have come into being since `H`, and those of `H` are as they were -/
structure Born (H h : Heap) (o : RefMacid) : Prop where
  grows : H.length ≤ h.length
  keeps : ∀ p, p < H.length → h.getD p [] = H.getD p []
  new : ∀ p ∈ o.addrs, H.length ≤ p
  priv : Private h o

theorem Born.moves {H h h' : Heap} {o o' : RefMacid} (b : Born H h o) (m : Moves h o h' o') : Born H h' o' := by
  refine ⟨b.grows.trans m.grows, fun p hp => ?_, fun p hp => ?_, m.priv⟩
  · rw [m.keeps p (hp.trans_le b.grows) (fun hm => absurd (b.new p hm) (not_le.2 hp)), b.keeps p hp]
  · rcases m.own p hp with h | h
    · exact b.new p h
    · exact b.grows.trans h

/-- making a diagram on references gives what it gives on values -/
def Makes (H : Heap) (r : Heap × Py RefMacid) (v : Py Macid) : Prop :=
  ∃ o, Born H r.1 o ∧ ((r.2 = .ok o ∧ v = .ok (o.view r.1)) ∨ ∃ e, r.2 = .error e ∧ v = .error e)

theorem makeAll_makes {H : Heap} {mk : Heap → RefMacid → Node → Heap × RefMacid × Py Unit} {mv : Macid → Node → Macid × Py Unit}
    (hmk : ∀ h o n, Private h o → Does h o (mk h o n) (mv (o.view h) n)) (ns : List Node) {h : Heap} {o : RefMacid} (b : Born H h o) :
    Makes H (makeAll mk h o ns) (Macid.makeAll mv (o.view h) ns) := by
  induction ns generalizing h o with
  | nil => exact ⟨o, b, Or.inl ⟨rfl, rfl⟩⟩
  | cons n ns ih =>
    obtain ⟨h1, h2⟩ := hmk h o n b.priv
    unfold makeAll Macid.makeAll
    rw [← h1]
    rcases hr : mk h o n with ⟨h', o', e | u⟩
    · rw [hr] at h2
      exact ⟨o', b.moves h2, Or.inr ⟨e, rfl, rfl⟩⟩
    · rw [hr] at h2
      exact ih (b.moves h2)

theorem copyRoles_makes {H : Heap} {src : RefMacid} (hs : ∀ p ∈ src.addrs, p < H.length) (as : List Agent) {h : Heap} {acc : RefMacid}
    (b : Born H h acc) : Makes H (copyRoles src h acc as) (Macid.copyRoles (src.view H) (acc.view h) as) := by
  induction as generalizing h acc with
  | nil => exact ⟨acc, b, Or.inl ⟨rfl, rfl⟩⟩
  | cons a as ih =>
    unfold copyRoles Macid.copyRoles
    have e1 : (src.view H).agentDecisions.get a = match src.agentDecisions.get? a with | some p => .ok (H.getD p []) | none => .error .key := by
      show Dict.get (listsOf H src.agentDecisions) a = _
      unfold Dict.get
      rw [get?_listsOf]
      cases src.agentDecisions.get? a <;> rfl
    have e2 : (src.view H).agentUtilities.get a = match src.agentUtilities.get? a with | some p => .ok (H.getD p []) | none => .error .key := by
      show Dict.get (listsOf H src.agentUtilities) a = _
      unfold Dict.get
      rw [get?_listsOf]
      cases src.agentUtilities.get? a <;> rfl
    rw [e1, e2]
    cases d1 : src.agentDecisions.get? a with
    | none => exact ⟨acc, b, Or.inr ⟨.key, rfl, rfl⟩⟩
    | some p =>
      simp only []
      rw [b.keeps p (hs p (mem_addrs_dec d1))]
      obtain ⟨o1, b1, ⟨r1, v1⟩ | ⟨e, r1, v1⟩⟩ := makeAll_makes
        (mk := fun h o n => makeDecision h o n a) (mv := fun m n => m.makeDecision n a) (fun h o n hp => makeDecision_does hp n a) (H.getD p []) b
      · rcases hr : makeAll (fun h o n => makeDecision h o n a) h acc (H.getD p []) with ⟨h', r⟩
        rw [hr] at r1 v1 b1
        cases r1
        rw [v1]
        simp only []
        cases d2 : src.agentUtilities.get? a with
        | none => exact ⟨o1, b1, Or.inr ⟨.key, rfl, rfl⟩⟩
        | some q =>
          simp only []
          rw [b1.keeps q (hs q (mem_addrs_util d2))]
          obtain ⟨o2, b2, ⟨r2, v2⟩ | ⟨e, r2, v2⟩⟩ := makeAll_makes
            (mk := fun h o n => makeUtility h o n a) (mv := fun m n => m.makeUtility n a) (fun h o n hp => makeUtility_does hp n a) (H.getD q []) b1
          · rcases hr2 : makeAll (fun h o n => makeUtility h o n a) h' o1 (H.getD q []) with ⟨h2, r⟩
            rw [hr2] at r2 v2 b2
            cases r2
            rw [v2]
            exact ih b2
          · rcases hr2 : makeAll (fun h o n => makeUtility h o n a) h' o1 (H.getD q []) with ⟨h2, r⟩
            rw [hr2] at r2 b2
            cases r2
            rw [v2]
            exact ⟨o2, b2, Or.inr ⟨e, rfl, rfl⟩⟩
      · rcases hr : makeAll (fun h o n => makeDecision h o n a) h acc (H.getD p []) with ⟨h', r⟩
        rw [hr] at r1 b1
        cases r1
        rw [v1]
        exact ⟨o1, b1, Or.inr ⟨e, rfl, rfl⟩⟩

theorem copy_makes {H : Heap} {src : RefMacid} (hs : ∀ p ∈ src.addrs, p < H.length) (cid : Bool) :
    Makes H (copyWithoutCpds H cid src) (Macid.copyWithoutCpds (if cid then Macid.newCid else Macid.new) (src.view H)) := by
  have hb : ∀ g, Born H (fresh H cid).1 { (fresh H cid).2 with g := g } ∧
      ({ (fresh H cid).2 with g := g } : RefMacid).view (fresh H cid).1 = { (if cid then Macid.newCid else Macid.new) with g := g } := by
    intro g
    cases cid with
    | false =>
      refine ⟨⟨le_rfl, fun _ _ => rfl, ?_, ⟨?_, ?_⟩⟩, rfl⟩ <;> simp [fresh, addrs]
    | true =>
      refine ⟨⟨by simp [fresh], fun p hp => getD_append_left _ hp, ?_, ⟨?_, ?_⟩⟩, ?_⟩
      · simp [fresh, addrs]
      · simp [fresh, addrs]
      · simp [fresh, addrs]
      · simp [fresh, view, listsOf, Macid.newCid, List.getD_eq_getElem?_getD]
  have hg : (if cid then Macid.newCid else Macid.new).g = Graph.empty := by cases cid <;> rfl
  unfold copyWithoutCpds Macid.copyWithoutCpds
  rw [hg]
  show Makes H (match (Graph.empty.addNodes src.g.nodes).addEdges src.g.edgesView with | .error _ => _ | .ok _ => _)
    (match (Graph.empty.addNodes src.g.nodes).addEdges src.g.edgesView with | .error _ => _ | .ok _ => _)
  have hk : (src.view H).agents = src.agentUtilities.keys := by
    show (listsOf H src.agentUtilities).map (·.1) = src.agentUtilities.map (·.1)
    unfold listsOf
    rw [List.map_map]
    rfl
  rw [hk]
  cases (Graph.empty.addNodes src.g.nodes).addEdges src.g.edgesView with
  | error e => exact ⟨⟨Graph.empty, [], [], [], []⟩, ⟨le_rfl, fun _ _ => rfl, by simp [addrs], ⟨by simp [addrs], by simp [addrs]⟩⟩, Or.inr ⟨e, rfl, rfl⟩⟩
  | ok g =>
    simp only []
    rw [← (hb g).2]
    exact copyRoles_makes hs _ (hb g).1

end RefMacid

theorem allocAll_spec (h : Heap) (d : Dict Agent (List Node)) :
    (allocAll h d).1 = h ++ d.map (·.2) ∧ (allocAll h d).2.map (·.2) = List.range' h.length d.length ∧
    listsOf (allocAll h d).1 (allocAll h d).2 = d := by
  induction d generalizing h with
  | nil => simp [allocAll, listsOf]
  | cons x d ih =>
    obtain ⟨a, l⟩ := x
    obtain ⟨i1, i2, i3⟩ := ih (h ++ [l])
    refine ⟨?_, ?_, ?_⟩
    · show (allocAll (h ++ [l]) d).1 = _
      rw [i1]; simp
    · show h.length :: (allocAll (h ++ [l]) d).2.map (·.2) = _
      rw [i2, List.length_cons, List.range'_succ]
      simp
    · show (a, (allocAll (h ++ [l]) d).1.getD h.length []) :: listsOf (allocAll (h ++ [l]) d).1 (allocAll (h ++ [l]) d).2 = _
      rw [i3, i1, List.append_assoc]
      simp [List.getD_eq_getElem?_getD]

/-- no two diagrams refer to the same list object -/
structure World.Apart (w : World) : Prop where
  priv : ∀ (i : Nat) o, w.objs[i]? = some o → o.Private w.heap
  apart : ∀ (i j : Nat) o o', i ≠ j → w.objs[i]? = some o → w.objs[j]? = some o' → ∀ p ∈ o.addrs, p ∉ o'.addrs

/-- what the user sees of all diagrams -/
def World.views (w : World) : List Macid := w.objs.map (fun o => o.view w.heap)

theorem view_congr {h h' : Heap} {o : RefMacid} (e : ∀ p ∈ o.addrs, h'.getD p [] = h.getD p []) : o.view h' = o.view h := by
  unfold RefMacid.view
  rw [listsOf_congr (fun p hp => e p (List.mem_append_left _ hp)), listsOf_congr (fun p hp => e p (List.mem_append_right _ hp))]

theorem apart_born {w : World} (ha : w.Apart) {h : Heap} {o : RefMacid} (b : RefMacid.Born w.heap h o) :
    (World.mk h (w.objs ++ [o])).Apart ∧ (World.mk h (w.objs ++ [o])).views = w.views ++ [o.view h] ∧
    (World.mk h w.objs).Apart ∧ (World.mk h w.objs).views = w.views := by
  have hv : w.objs.map (fun o => o.view h) = w.objs.map (fun o => o.view w.heap) := by
    refine List.map_congr_left (fun x hx => view_congr (fun p hp => b.keeps p ?_))
    obtain ⟨i, hi⟩ := List.getElem?_of_mem hx
    exact (ha.priv i x hi).lt p hp
  have hpr : ∀ (i : Nat) x, w.objs[i]? = some x → x.Private h :=
    fun i x hi => ⟨(ha.priv i x hi).nodup, fun p hp => ((ha.priv i x hi).lt p hp).trans_le b.grows⟩
  have hcase : ∀ (i : Nat) x, (w.objs ++ [o])[i]? = some x → w.objs[i]? = some x ∨ (i = w.objs.length ∧ x = o) := by
    intro i x hi
    rw [List.getElem?_append] at hi
    split at hi
    · exact Or.inl hi
    · have : i - w.objs.length = 0 := by
        by_contra hne
        obtain ⟨k, hk⟩ := Nat.exists_eq_succ_of_ne_zero hne
        rw [hk] at hi
        cases hi
      rw [this] at hi
      exact Or.inr ⟨by omega, by simpa using hi.symm⟩
  refine ⟨⟨fun i x hi => ?_, fun i j x y hij hi hj p hp hq => ?_⟩, ?_, ⟨hpr, ha.apart⟩, hv⟩
  · rcases hcase i x hi with h' | ⟨_, rfl⟩
    · exact hpr i x h'
    · exact b.priv
  · rcases hcase i x hi with h1 | ⟨h1, rfl⟩ <;> rcases hcase j y hj with h2 | ⟨h2, rfl⟩
    · exact ha.apart i j x y hij h1 h2 p hp hq
    · exact absurd ((ha.priv i x h1).lt p hp) (not_lt.2 (b.new p hq))
    · exact absurd ((ha.priv j y h2).lt p hq) (not_lt.2 (b.new p hp))
    · omega
  · show (w.objs ++ [o]).map (fun o => o.view h) = _
    rw [List.map_append, hv]
    rfl

theorem apart_moves {w : World} (ha : w.Apart) {i : Nat} {o : RefMacid} (hi : w.objs[i]? = some o) {h : Heap} {o' : RefMacid}
    (m : RefMacid.Moves w.heap o h o') :
    (World.mk h (w.objs.set i o')).Apart ∧ (World.mk h (w.objs.set i o')).views = w.views.set i (o'.view h) := by
  have hcase : ∀ (j : Nat) x, (w.objs.set i o')[j]? = some x → (j ≠ i ∧ w.objs[j]? = some x) ∨ (j = i ∧ x = o') := by
    intro j x hj
    rw [List.getElem?_set] at hj
    split at hj
    · rename_i e
      split at hj
      · exact Or.inr ⟨e.symm, by simpa using hj.symm⟩
      · cases hj
    · rename_i e
      exact Or.inl ⟨fun h => e h.symm, hj⟩
  have hout : ∀ (j : Nat) x, j ≠ i → w.objs[j]? = some x → ∀ p ∈ x.addrs, p ∉ o'.addrs := by
    intro j x hj hx p hp hp'
    rcases m.own p hp' with h' | h'
    · exact ha.apart j i x o hj hx hi p hp h'
    · exact absurd ((ha.priv j x hx).lt p hp) (not_lt.2 h')
  refine ⟨⟨fun j x hj => ?_, fun j k x y hjk hj hk p hp hq => ?_⟩, ?_⟩
  · rcases hcase j x hj with ⟨_, h'⟩ | ⟨_, rfl⟩
    · exact ⟨(ha.priv j x h').nodup, fun p hp => ((ha.priv j x h').lt p hp).trans_le m.grows⟩
    · exact m.priv
  · rcases hcase j x hj with ⟨n1, h1⟩ | ⟨n1, rfl⟩ <;> rcases hcase k y hk with ⟨n2, h2⟩ | ⟨n2, rfl⟩
    · exact ha.apart j k x y hjk h1 h2 p hp hq
    · exact hout j x n1 h1 p hp hq
    · exact hout k y n2 h2 p hq hp
    · omega
  · show (w.objs.set i o').map (fun o => o.view h) = (w.objs.map (fun o => o.view w.heap)).set i (o'.view h)
    refine List.ext_getElem? (fun j => ?_)
    rw [List.getElem?_map, List.getElem?_set, List.getElem?_set, List.getElem?_map, List.length_map]
    split
    · split <;> rfl
    · rename_i e
      cases hx : w.objs[j]? with
      | none => rfl
      | some x =>
        simp only [Option.map_some]
        rw [view_congr (fun p hp => m.keeps p ((ha.priv j x hx).lt p hp)
          (ha.apart j i x o (fun h => e h.symm) hx hi p hp))]

theorem exec_value {w : World} (ha : w.Apart) (s : Stmt) :
    (w.exec s).1.Apart ∧ ((w.exec s).1.views, (w.exec s).2) = execValue w.views s := by
  have hget : ∀ i : Nat, w.views[i]? = w.objs[i]?.map (fun o => o.view w.heap) := fun i => List.getElem?_map
  cases s with
  | create edges ad au =>
    obtain ⟨d1, d2, d3⟩ := allocAll_spec w.heap ad
    obtain ⟨u1, u2, u3⟩ := allocAll_spec (allocAll w.heap ad).1 au
    have hdl : listsOf (allocAll (allocAll w.heap ad).1 au).1 (allocAll w.heap ad).2 = ad := by
      rw [u1]
      refine (listsOf_congr (fun p hp => getD_append_left _ ?_)).trans d3
      rw [d2] at hp
      exact Nat.lt_of_lt_of_le (List.mem_range'_1.1 hp).2 (by rw [d1]; simp)
    have hb : ∀ g x y, RefMacid.Born w.heap (allocAll (allocAll w.heap ad).1 au).1
        ⟨g, (allocAll w.heap ad).2, (allocAll (allocAll w.heap ad).1 au).2, x, y⟩ := by
      intro g x y
      have hadd : (RefMacid.mk g (allocAll w.heap ad).2 (allocAll (allocAll w.heap ad).1 au).2 x y).addrs =
          List.range' w.heap.length (ad.length + au.length) := by
        show _ ++ _ = _
        rw [d2, u2, d1, ← List.range'_append]
        simp
      refine ⟨by rw [u1, d1]; simp, fun p hp => ?_, fun p hp => ?_, ⟨hadd ▸ List.nodup_range', fun p hp => ?_⟩⟩
      · rw [u1, d1, getD_append_left _ (Nat.lt_of_lt_of_le hp (by simp)), getD_append_left _ hp]
      · exact (List.mem_range'_1.1 (hadd ▸ hp)).1
      · exact Nat.lt_of_lt_of_le (List.mem_range'_1.1 (hadd ▸ hp)).2 (by rw [u1, d1]; simp)
    unfold World.exec execValue RefMacid.init Macid.init
    simp only []
    cases hg : Graph.ofEdges edges with
    | error e =>
      obtain ⟨_, _, h3, h4⟩ := apart_born ha (hb Graph.empty [] [])
      exact ⟨h3, by simp only [h4]⟩
    | ok g =>
      obtain ⟨h1, h2, _, _⟩ := apart_born ha (hb g (invert ad) (invert au))
      simp only [hdl, u3]
      refine ⟨h1, ?_⟩
      rw [h2]
      unfold RefMacid.view
      simp only [hdl, u3]
  | copy i cid =>
    unfold World.exec execValue
    simp only [hget]
    cases hi : w.objs[i]? with
    | none => exact ⟨ha, rfl⟩
    | some o =>
      simp only [Option.map_some]
      obtain ⟨o', b, ⟨r, v⟩ | ⟨e, r, v⟩⟩ := RefMacid.copy_makes (src := o) (ha.priv i o hi).lt cid
      · rcases hr : o.copyWithoutCpds w.heap cid with ⟨h, x⟩
        rw [hr] at r v b
        cases r
        rw [v]
        obtain ⟨h1, h2, _, _⟩ := apart_born ha b
        exact ⟨h1, by simp only [h2]⟩
      · rcases hr : o.copyWithoutCpds w.heap cid with ⟨h, x⟩
        rw [hr] at r b
        cases r
        rw [v]
        obtain ⟨_, _, h3, h4⟩ := apart_born ha b
        exact ⟨h3, by simp only [h4]⟩
  | call i op =>
    unfold World.exec execValue
    simp only [hget]
    cases hi : w.objs[i]? with
    | none => exact ⟨ha, rfl⟩
    | some o =>
      simp only [Option.map_some]
      obtain ⟨h1, h2⟩ := RefMacid.runOp_does (ha.priv i o hi) op
      rw [← h1]
      obtain ⟨h3, h4⟩ := apart_moves ha hi h2
      exact ⟨h3, by simp only [h4]⟩

theorem apart_empty : (World.mk [] []).Apart := ⟨fun i o h => by simp at h, fun i j o o' _ h => by simp at h⟩

theorem execAll_value {w : World} (ha : w.Apart) (prog : List Stmt) :
    (w.execAll prog).1.Apart ∧ ((w.execAll prog).1.views, (w.execAll prog).2) = execValues w.views prog := by
  induction prog generalizing w with
  | nil => exact ⟨ha, rfl⟩
  | cons s ss ih =>
    obtain ⟨h1, h2⟩ := exec_value ha s
    obtain ⟨i1, i2⟩ := ih h1
    refine ⟨i1, ?_⟩
    unfold World.execAll execValues
    rw [← h2, ← i2]

/-- **C92** In every program that gives every constructor its own lists, diagrams behave as separate values: all calls have the
outcome, and all diagrams the roles, that they would have if `agent_decisions` and `agent_utilities` held values and not references.
The program may create any number of diagrams, copy them, and change roles in any order. -/
theorem C92_programs (prog : List Stmt) :
    ((World.mk [] []).execAll prog).1.views = (execValues [] prog).1 ∧
    ((World.mk [] []).execAll prog).2 = (execValues [] prog).2 := by
  have h := (execAll_value apart_empty prog).2
  exact ⟨congrArg Prod.fst h, congrArg Prod.snd h⟩

/-- **C92** After any such program, a diagram is changed only by calls on this very diagram: creating and copying diagrams and calls on
other diagrams, in particular on its copies and on the diagram it was copied from, leave it alone. -/
theorem C92_untouched (prog rest : List Stmt) (k : Nat) (hk : k < ((World.mk [] []).execAll prog).1.objs.length)
    (hr : ∀ s ∈ rest, ∀ op, s ≠ .call k op) :
    (((World.mk [] []).execAll prog).1.execAll rest).1.views[k]? = ((World.mk [] []).execAll prog).1.views[k]? := by
  have ha := (execAll_value apart_empty prog).1
  generalize ((World.mk [] []).execAll prog).1 = w at hk ha
  induction rest generalizing w with
  | nil => rfl
  | cons s ss ih =>
    obtain ⟨h1, h2⟩ := exec_value ha s
    have hkv : k < w.views.length := by simpa [World.views] using hk
    have hs : (w.exec s).1.views[k]? = w.views[k]? ∧ k < (w.exec s).1.views.length := by
      rw [show (w.exec s).1.views = (execValue w.views s).1 from congrArg Prod.fst h2]
      cases s with
      | create edges ad au =>
        unfold execValue
        simp only []
        cases Macid.init edges ad au with
        | error e => exact ⟨rfl, hkv⟩
        | ok m => exact ⟨List.getElem?_append_left hkv, by simp; omega⟩
      | copy i cid =>
        unfold execValue
        simp only []
        cases w.views[i]? with
        | none => exact ⟨rfl, hkv⟩
        | some m =>
          simp only []
          cases Macid.copyWithoutCpds (if cid then Macid.newCid else Macid.new) m with
          | error e => exact ⟨rfl, hkv⟩
          | ok m => exact ⟨List.getElem?_append_left hkv, by simp; omega⟩
      | call i op =>
        have hne : i ≠ k := fun e => hr _ List.mem_cons_self op (by rw [e])
        unfold execValue
        simp only []
        cases w.views[i]? with
        | none => exact ⟨rfl, hkv⟩
        | some m => exact ⟨List.getElem?_set_ne hne, by simpa using hkv⟩
    have hk' : k < (w.exec s).1.objs.length := by simpa [World.views] using hs.2
    have := ih (fun s hs => hr s (List.mem_cons_of_mem _ hs)) (w.exec s).1 hk' h1
    show ((w.exec s).1.execAll ss).1.views[k]? = _
    rw [this, hs.1]

/-! ### shared lists -/

namespace RefMacid

/-- a history of calls on one object -/
def runOps (h : Heap) (o : RefMacid) : List RoleOp → Heap × RefMacid
  | [] => (h, o)
  | op :: ops => runOps (runOp h o op).1 (runOp h o op).2.1 ops

theorem runOp_refs (h : Heap) (o : RefMacid) (op : RoleOp) :
    (∀ a p, o.agentDecisions.get? a = some p → (runOp h o op).2.1.agentDecisions.get? a = some p) ∧
    ∀ a p, o.agentUtilities.get? a = some p → (runOp h o op).2.1.agentUtilities.get? a = some p := by
  have hc : ∀ n, (makeChance h o n).2.1.agentDecisions = o.agentDecisions ∧ (makeChance h o n).2.1.agentUtilities = o.agentUtilities := by
    intro n
    unfold makeChance
    simp only []
    split
    · exact ⟨rfl, rfl⟩
    · split
      · split
        · exact ⟨rfl, rfl⟩
        · split <;> exact ⟨rfl, rfl⟩
      · split
        · split
          · exact ⟨rfl, rfl⟩
          · split <;> exact ⟨rfl, rfl⟩
        · exact ⟨rfl, rfl⟩
  have hset : ∀ (d : Dict Agent Addr) a q, d.get? a = none → ∀ b p, d.get? b = some p → (d.set a q).get? b = some p := by
    intro d a q hn b p hb
    rw [Dict.get?_set]
    split
    · rename_i e; rw [e] at hb; rw [hb] at hn; cases hn
    · exact hb
  cases op with
  | makeChance n => exact ⟨fun a p e => (hc n).1 ▸ e, fun a p e => (hc n).2 ▸ e⟩
  | makeDecision n a =>
    obtain ⟨h1, h2⟩ := hc n
    rcases hr : makeChance h o n with ⟨h', o', e | u⟩
    · rw [hr] at h1 h2
      simp only [] at h1 h2
      simp only [runOp, makeDecision, hr, h1, h2]
      exact ⟨fun a p e => e, fun a p e => e⟩
    · rw [hr] at h1 h2
      simp only [] at h1 h2
      simp only [runOp, makeDecision, hr]
      cases e : o'.agentDecisions.get? a with
      | none => exact ⟨fun b p hb => hset _ a _ e b p (h1 ▸ hb), fun b p hb => by simp only [h2]; exact hb⟩
      | some q => exact ⟨fun b p hb => by simp only [h1]; exact hb, fun b p hb => by simp only [h2]; exact hb⟩
  | makeUtility n a =>
    obtain ⟨h1, h2⟩ := hc n
    rcases hr : makeChance h o n with ⟨h', o', e | u⟩
    · rw [hr] at h1 h2
      simp only [] at h1 h2
      simp only [runOp, makeUtility, hr, h1, h2]
      exact ⟨fun a p e => e, fun a p e => e⟩
    · rw [hr] at h1 h2
      simp only [] at h1 h2
      simp only [runOp, makeUtility, hr]
      cases e : o'.agentUtilities.get? a with
      | none => exact ⟨fun b p hb => by simp only [h1]; exact hb, fun b p hb => hset _ a _ e b p (h2 ▸ hb)⟩
      | some q => exact ⟨fun b p hb => by simp only [h1]; exact hb, fun b p hb => by simp only [h2]; exact hb⟩

end RefMacid

/-- **C92** The constructor takes over the lists of its arguments: after any history of role changes, the mappings that were passed to
the constructor show, for every agent in them, the present decisions and utilities of the diagram and not those that were passed. -/
theorem C92_arguments_follow (h : Heap) (edges : List (Node × Node)) (ad au : Dict Agent Addr) (o : RefMacid)
    (hi : RefMacid.init h edges ad au = .ok o) (ops : List RoleOp) :
    (∀ a ∈ ad.keys, (listsOf (o.runOps h ops).1 ad).get? a = ((o.runOps h ops).2.view (o.runOps h ops).1).agentDecisions.get? a) ∧
    ∀ a ∈ au.keys, (listsOf (o.runOps h ops).1 au).get? a = ((o.runOps h ops).2.view (o.runOps h ops).1).agentUtilities.get? a := by
  have h0 : (∀ a p, ad.get? a = some p → o.agentDecisions.get? a = some p) ∧ ∀ a p, au.get? a = some p → o.agentUtilities.get? a = some p := by
    unfold RefMacid.init at hi
    cases hg : Graph.ofEdges edges with
    | error e => rw [hg] at hi; cases hi
    | ok g => rw [hg] at hi; cases hi; exact ⟨fun _ _ e => e, fun _ _ e => e⟩
  clear hi
  induction ops generalizing h o with
  | nil =>
    constructor
    · intro a ha
      obtain ⟨p, hp⟩ := Dict.mem_keys.1 ha
      show _ = (listsOf h o.agentDecisions).get? a
      rw [get?_listsOf, get?_listsOf, hp, h0.1 a p hp]
      rfl
    · intro a ha
      obtain ⟨p, hp⟩ := Dict.mem_keys.1 ha
      show _ = (listsOf h o.agentUtilities).get? a
      rw [get?_listsOf, get?_listsOf, hp, h0.2 a p hp]
      rfl
  | cons op ops ih =>
    obtain ⟨r1, r2⟩ := RefMacid.runOp_refs h o op
    exact ih (o.runOp h op).1 (o.runOp h op).2.1 ⟨fun a p e => r1 a p (h0.1 a p e), fun a p e => r2 a p (h0.2 a p e)⟩

/-- **C92** Two diagrams built from the same mapping of decisions: turning a decision of the first into a chance node leaves the second
with contradictory records.  The node is still among the decisions of the second, but in no list of `agent_decisions`; trying to change
its role there raises ValueError and takes it out of the decisions all the same. -/
theorem C92_shared_decisions (h : Heap) (edges edges' : List (Node × Node)) (ad au au' : Dict Agent Addr) (o o' : RefMacid)
    (hi : RefMacid.init h edges ad au = .ok o) (hi' : RefMacid.init h edges' ad au' = .ok o') (hp : o.Private h)
    (hc : (o.view h).Consistent) (hc' : (o'.view h).Consistent) (d : Node) (hd : d ∈ (o.view h).decisions) :
    ∃ h1 o1, o.makeChance h d = (h1, o1, .ok ()) ∧ (o1.view h1).Consistent ∧ d ∉ (o1.view h1).decisions ∧
      d ∈ (o'.view h1).decisions ∧ (∀ a l, (o'.view h1).agentDecisions.get? a = some l → d ∉ l) ∧ ¬ (o'.view h1).Consistent ∧
      (∀ a, ∃ o2, o'.makeDecision h1 d a = (h1, o2, .error .value) ∧ d ∉ (o2.view h1).decisions) ∧
      ∃ o2, o'.makeChance h1 d = (h1, o2, .error .value) ∧ d ∉ (o2.view h1).decisions := by
  have hin : d ∈ o.g.nodes := hc.nodes d (Or.inl hd)
  have e0 : o.agentDecisions = ad ∧ o.decisionAgent = invert (listsOf h ad) := by
    unfold RefMacid.init at hi
    cases hg : Graph.ofEdges edges with
    | error e => rw [hg] at hi; cases hi
    | ok g => rw [hg] at hi; cases hi; exact ⟨rfl, rfl⟩
  have e0' : o'.agentDecisions = ad ∧ o'.decisionAgent = invert (listsOf h ad) := by
    unfold RefMacid.init at hi'
    cases hg : Graph.ofEdges edges' with
    | error e => rw [hg] at hi'; cases hi'
    | ok g => rw [hg] at hi'; cases hi'; exact ⟨rfl, rfl⟩
  obtain ⟨a, ha⟩ := Dict.mem_keys.1 hd
  have ha0 : o.decisionAgent.get? d = some a := ha
  have ha' : o'.decisionAgent.get? d = some a := by rw [e0'.2, ← e0.2]; exact ha0
  have hin' : d ∈ o'.g.nodes := hc'.nodes d (Or.inl (Dict.mem_keys.2 ⟨a, ha'⟩))
  obtain ⟨l, hl, hm⟩ := (hc.dec.iff d a).1 ha
  have hl0 : (listsOf h ad).get? a = some l := by rw [← e0.1]; exact hl
  rw [get?_listsOf] at hl0
  obtain ⟨p, hpa, hpl⟩ := Option.map_eq_some_iff.1 hl0
  have hrun : o.makeChance h d = (h.set p (l.erase d), { o with decisionAgent := o.decisionAgent.erase d }, .ok ()) := by
    unfold RefMacid.makeChance
    rw [if_neg (not_not.2 hin), ha0]
    simp only []
    rw [e0.1, hpa]
    simp only [hpl, hm, if_true]
  obtain ⟨d1, d2⟩ := RefMacid.makeChance_does hp d
  rw [hrun] at d1 d2
  obtain ⟨c1, c2, c3, _, _⟩ := C15_role_call (o.view h) hc (.makeChance d)
  have hv : ((o.view h).runOp (.makeChance d)).1 =
      ({ o with decisionAgent := o.decisionAgent.erase d } : RefMacid).view (h.set p (l.erase d)) := (congrArg Prod.fst d1).symm
  rw [hv] at c1
  have hnone : ∀ b q, ad.get? b = some q → d ∉ (h.set p (l.erase d)).getD q [] := by
    intro b q hq
    by_cases e : q = p
    · subst e
      have hlt : q < h.length := hp.lt q (RefMacid.mem_addrs_dec (a := b) (by rw [e0.1]; exact hq))
      rw [getD_set_self hlt]
      exact List.Nodup.not_mem_erase (hc.dec.nodup a l hl)
    · rw [getD_set_ne e]
      intro hmem
      have hb : (o.view h).decisionAgent.get? d = some b := (hc.dec.iff d b).2 ⟨h.getD q [], by
        show (listsOf h o.agentDecisions).get? b = _
        rw [get?_listsOf, e0.1, hq]; rfl, hmem⟩
      have hab : b = a := Option.some.inj (hb.symm.trans ha)
      rw [hab, hpa] at hq
      exact e (Option.some.inj hq).symm
  have hlists : ∀ b l', (o'.view (h.set p (l.erase d))).agentDecisions.get? b = some l' → d ∉ l' := by
    intro b l' hb
    have hb' : (listsOf (h.set p (l.erase d)) o'.agentDecisions).get? b = some l' := hb
    rw [get?_listsOf, e0'.1] at hb'
    obtain ⟨q, hq, rfl⟩ := Option.map_eq_some_iff.1 hb'
    exact hnone b q hq
  have hdec' : d ∈ (o'.view (h.set p (l.erase d))).decisions := Dict.mem_keys.2 ⟨a, ha'⟩
  have hch : o'.makeChance (h.set p (l.erase d)) d =
      (h.set p (l.erase d), { o' with decisionAgent := o'.decisionAgent.erase d }, .error .value) := by
    unfold RefMacid.makeChance
    rw [if_neg (not_not.2 hin'), ha']
    simp only []
    rw [e0'.1, hpa]
    simp only [hnone a p hpa, if_false]
  have hgone : d ∉ (({ o' with decisionAgent := o'.decisionAgent.erase d } : RefMacid).view (h.set p (l.erase d))).decisions := by
    intro hmem
    obtain ⟨b, hb⟩ := Dict.mem_keys.1 hmem
    have hb' : (o'.decisionAgent.erase d).get? d = some b := hb
    rw [Dict.get?_erase] at hb'
    simp at hb'
  refine ⟨_, _, hrun, c1, ?_, hdec', hlists, fun hcc => ?_, fun b => ⟨_, ?_, hgone⟩, _, hch, hgone⟩
  · intro hmem
    obtain ⟨b, hb⟩ := Dict.mem_keys.1 hmem
    have hb' : (o.decisionAgent.erase d).get? d = some b := hb
    rw [Dict.get?_erase] at hb'
    simp at hb'
  · obtain ⟨l', h1, h2⟩ := (hcc.dec.iff d a).1 ha'
    exact hlists a l' h1 h2
  · unfold RefMacid.makeDecision
    rw [hch]

/-- three diagrams, the third a copy of the first; calls on all of them -/
def exProg : List Stmt :=
  [.create [("A", "D"), ("D", "U")] [(0, ["D"])] [(0, ["U"])],
   .create [("A", "D"), ("D", "U")] [(0, ["D"])] [(0, ["U"])],
   .copy 0 true, .call 0 (.makeChance "D"), .call 2 (.makeDecision "A" 1), .call 1 (.makeUtility "A" 0)]

example : ((World.mk [] []).execAll exProg).1.views.map (fun m => (m.agentDecisions, m.agentUtilities)) =
    [([(0, [])], [(0, ["U"])]), ([(0, ["D"])], [(0, ["U", "A"])]), ([(0, ["D"]), (1, ["A"])], [(0, ["U"])])] := by decide +kernel

/-- two diagrams built from the lists 0 and 1 -/
example : ∃ o, RefMacid.init [["D"], ["U"]] [("A", "D"), ("D", "U")] [(0, 0)] [(0, 1)] = .ok o ∧ o.Private [["D"], ["U"]] ∧
    (o.view [["D"], ["U"]]).Consistent ∧ "D" ∈ (o.view [["D"], ["U"]]).decisions := by
  refine ⟨_, rfl, ⟨by decide +kernel, by decide +kernel⟩, ?_, by decide +kernel⟩
  exact C15_constructor_consistent [("A", "D"), ("D", "U")] [(0, ["D"])] [(0, ["U"])] _ (by decide +kernel) (by decide) (by decide)
    (by decide) (by decide +kernel)

end Verif
