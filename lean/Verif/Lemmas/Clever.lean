import Verif.Lemmas.Guess

/-!
# Guessing right
-/

namespace Verif

open Graph Relation Macid Net

namespace Plan

/-- what the observations say the bit is -/
def told (P : Plan) (a : Assign) : Bool := (P.wires true).read a (.main 0) ^^ P.seen ((P.wires true).read a) P.n

/-- guess what the observations say -/
def clever (P : Plan) (d : Node) (a : Assign) : Rat :=
  if a d = (P.wires true).enc ((P.wires true).here d (fun _ => P.told a)) then 1 else 0

variable {P : Plan} {g : Graph} {d : Node}

theorem Placed.told_depends (h : P.Placed g d) {a b : Assign} (hab : ∀ v, g.Edge v d → a v = b v) : P.told a = P.told b := by
  unfold told
  have h1 : (P.wires true).read a (.main 0) = (P.wires true).read b (.main 0) := by
    unfold Wiring.read
    show Wiring.bit _ _ (a (P.w 0)) = Wiring.bit _ _ (b (P.w 0))
    rw [hab _ h.root]
  rw [h1, P.seen_congr (fun c hc => ?_)]
  unfold Wiring.read
  show Wiring.bit _ _ (a (P.node (P.landing c))) = Wiring.bit _ _ (b (P.node (P.landing c)))
  rw [P.landing_node h.ok hc, hab _ (h.ok.land c hc)]

theorem Placed.clever_rule (h : P.Placed g d) {n : Net} (hac : n.g.Acyclic) (he : ∀ v, g.Edge v d → n.g.Edge v d) (hdom : n.dom d = (P.wires true).dom) :
    n.bn.IsRule d (P.clever d) := by
  refine ⟨fun a b hab => ?_, fun a _ => ?_, fun a _ => ?_⟩
  · unfold clever
    rw [h.told_depends (fun v hv => hab v (Or.inr (he v hv))), hab d (Or.inl rfl)]
  · show ((n.dom d).map (fun x => P.clever d (Assign.upd a d x))).sum = 1
    rw [hdom]
    have e : ∀ x, P.clever d (Assign.upd a d x) = if x = (P.wires true).enc ((P.wires true).here d (fun _ => P.told a)) then 1 else 0 := by
      intro x
      unfold clever
      rw [Assign.upd_same, h.told_depends (b := a) (fun v hv => Assign.upd_ne _ _ (by
        rintro rfl; exact hac _ (TransGen.single (he _ hv))))]
    simp only [e]
    have hmem := (P.wires true).enc_dom ((P.wires true).here d (fun _ => P.told a))
    generalize (P.wires true).enc ((P.wires true).here d (fun _ => P.told a)) = c at hmem ⊢
    have hnd : (P.wires true).dom.Nodup := (Wiring.dom_sorted _).imp (fun h => ne_of_lt h)
    generalize (P.wires true).dom = l at hmem hnd
    induction l with
    | nil => simp at hmem
    | cons y l ih =>
      obtain ⟨n1, n2⟩ := List.nodup_cons.1 hnd
      simp only [List.map_cons, List.sum_cons]
      by_cases e : y = c
      · subst e
        have : (l.map (fun x => if x = y then (1 : Rat) else 0)).sum = 0 := by
          apply List.sum_eq_zero
          intro z hz
          obtain ⟨x, hx, rfl⟩ := List.mem_map.1 hz
          rw [if_neg]
          rintro rfl
          exact n1 hx
        rw [this]; simp
      · rw [ih ((List.mem_cons.1 hmem).resolve_left (Ne.symm e)) n2]; simp [e]
  · unfold clever
    split <;> norm_num

theorem Placed.clever_guess (h : P.Placed g d) {a : Assign} (hp : 0 < P.clever d a) : (P.wires true).read a (.guess 0) = P.told a := by
  unfold clever at hp
  split at hp
  · rename_i e
    unfold Wiring.read
    show (P.wires true).bit _ (a (P.act 0)) = _
    rw [h.act0, e, Wiring.bit_enc (P.guess_mem (Nat.zero_le _))]
    unfold Wiring.here
    show (decide (P.act 0 = d) && _) = _
    simp [h.act0]
  · exact absurd hp (lt_irrefl _)

end Plan
end Verif
