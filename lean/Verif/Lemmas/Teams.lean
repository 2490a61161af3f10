import Verif.Lemmas.Joint
import Verif.Lemmas.TeamSep

/-!
# Splitting the decisions of an agent into teams
-/

namespace Verif

open Graph Relation Macid

open Classical in
/-- Every finite relation can be listed by strongly connected classes, sinks first. -/
theorem exists_classes (R : Node → Node → Prop) : ∀ (n : Nat) (L : List Node), L.length = n → L.Nodup →
    ∃ Ks : List (List Node), (∀ v, v ∈ L ↔ ∃ K ∈ Ks, v ∈ K) ∧
      (∀ K ∈ Ks, (∃ d, d ∈ K) ∧ ∀ d ∈ K, ∀ e ∈ K, ReflTransGen (fun x y => y ∈ K ∧ R x y) d e) ∧
      Ks.Pairwise (fun K K' => ∀ d ∈ K, d ∉ K' ∧ ∀ e ∈ K', ¬ R d e) := by
  intro n
  induction n using Nat.strong_induction_on with
  | _ n ih =>
    intro L hn hnd
    rcases List.eq_nil_or_concat L with rfl | ⟨L0, b, rfl⟩
    · exact ⟨[], by simp, by simp, by simp⟩
    · generalize hL : L0.concat b = L at *
      have hbL : b ∈ L := by rw [← hL]; simp
      let RL : Node → Node → Prop := fun x y => y ∈ L ∧ R x y
      let rs : Node → List Node := fun d => L.filter (fun e => decide (ReflTransGen RL d e))
      have hrs : ∀ d e, e ∈ rs d ↔ e ∈ L ∧ ReflTransGen RL d e := fun d e => by simp [rs]
      obtain ⟨d, hdL, hmin⟩ := WellFounded.has_min (measure (fun d => (rs d).length)).wf {d | d ∈ L} ⟨b, hbL⟩
      have hback : ∀ e ∈ rs d, ReflTransGen RL e d := by
        intro e he
        by_contra hcon
        have heL := ((hrs d e).1 he).1
        apply hmin e heL
        show (rs e).length < (rs d).length
        have hsub : d :: rs e ⊆ rs d := by
          intro x hx
          rcases List.mem_cons.1 hx with rfl | hx
          · exact (hrs x x).2 ⟨hdL, .refl⟩
          · obtain ⟨h1, h2⟩ := (hrs e x).1 hx
            exact (hrs d x).2 ⟨h1, ((hrs d e).1 he).2.trans h2⟩
        have := length_le_of_nodup_subset (l₂ := rs d) (List.nodup_cons.2 ⟨fun h => hcon ((hrs e d).1 h).2, hnd.filter _⟩) hsub
        simp only [List.length_cons] at this
        omega
      have hin : ∀ x y, x ∈ rs d → y ∈ L → R x y → y ∈ rs d := fun x y hx hy hxy =>
        (hrs d y).2 ⟨hy, ((hrs d x).1 hx).2.tail ⟨hy, hxy⟩⟩
      have hlift : ∀ x y, x ∈ rs d → ReflTransGen RL x y → ReflTransGen (fun x y => y ∈ rs d ∧ R x y) x y := by
        intro x y hx hxy
        induction hxy using ReflTransGen.head_induction_on with
        | refl => exact .refl
        | @head a c hac _ ih =>
          have hc := hin a c hx hac.1 hac.2
          exact ReflTransGen.head ⟨hc, hac.2⟩ (ih hc)
      let L' := L.filter (fun e => decide (e ∉ rs d))
      have hL' : ∀ e, e ∈ L' ↔ e ∈ L ∧ e ∉ rs d := fun e => by simp [L']
      have hlt : L'.length < n := by
        rw [← hn]
        have hsub : d :: L' ⊆ L := by
          intro x hx
          rcases List.mem_cons.1 hx with rfl | hx
          · exact hdL
          · exact ((hL' x).1 hx).1
        have := length_le_of_nodup_subset (l₂ := L) (List.nodup_cons.2
          ⟨fun h => ((hL' d).1 h).2 ((hrs d d).2 ⟨hdL, .refl⟩), hnd.filter _⟩) hsub
        simp only [List.length_cons] at this
        omega
      obtain ⟨Ks, i1, i2, i3⟩ := ih L'.length hlt L' rfl (hnd.filter _)
      refine ⟨rs d :: Ks, fun v => ?_, ?_, ?_⟩
      · simp only [List.mem_cons, exists_eq_or_imp]
        rw [← i1 v, hL' v]
        constructor
        · intro hv
          by_cases h : v ∈ rs d
          · exact Or.inl h
          · exact Or.inr ⟨hv, h⟩
        · rintro (h | h)
          · exact ((hrs d v).1 h).1
          · exact h.1
      · intro K hK
        rcases List.mem_cons.1 hK with rfl | hK
        · refine ⟨⟨d, (hrs d d).2 ⟨hdL, .refl⟩⟩, fun x hx y hy => ?_⟩
          exact hlift x y hx ((hback x hx).trans ((hrs d y).1 hy).2)
        · exact i2 K hK
      · refine List.pairwise_cons.2 ⟨fun K' hK' x hx => ⟨fun hx' => ?_, fun e he hR => ?_⟩, i3⟩
        · exact ((hL' x).1 ((i1 x).2 ⟨K', hK', hx'⟩)).2 hx
        · obtain ⟨h1, h2⟩ := (hL' e).1 ((i1 e).2 ⟨K', hK', he⟩)
          exact h2 (hin x e hx h1 hR)

namespace Net

open Classical in
/-- The decisions `L` of an agent, split into teams separated from later teams and from `C`. -/
theorem exists_teams {m : Macid} (hc : m.Consistent) (hnames : NamesOk m.g) {agent : Agent} {us : List Node}
    (hus : ∀ u ∈ us, m.role u = .utility agent) {L : List Node} (hnd : L.Nodup) (hL : ∀ d ∈ L, m.role d = .decision agent)
    {C : Node → Prop} (hCn : ∀ v, C v → v ∈ m.g.nodes) (hCL : ∀ v, C v → v ∉ L) (hC : ∀ v, C v → ∀ d ∈ L, ¬ m.RReach d v) :
    ∃ Ks : List (List Node × List Node), (∀ v, BN.Member Ks v ↔ v ∈ L) ∧
      (∀ KO ∈ Ks, (∀ o ∈ KO.2, ∃ d ∈ L, m.g.Edge o d) ∧ ∀ d ∈ KO.1, d ∈ L) ∧ BN.Teams m.g (fun a => (us.map a).sum) C Ks := by
  have hm : MecFree m.g := mecFree_of_names hnames
  obtain ⟨mg, _, hw, h3, h4⟩ := mechGraph_spec hc.wf hm
  obtain ⟨Ks, i1, i2, i3⟩ := exists_classes m.RReach L.length L rfl hnd
  let ob : List Node → List Node := fun K => m.g.nodes.filter (fun o => decide (∀ d ∈ K, m.g.Edge o d))
  have hLn : ∀ d ∈ L, d ∈ m.g.nodes := fun d hd => hc.nodes d (Or.inl (Dict.mem_keys.2 ⟨agent, role_decision.1 (hL d hd)⟩))
  refine ⟨Ks.map (fun K => (K, ob K)), fun v => ?_, ?_, ?_⟩
  · simp only [BN.Member, List.mem_map, i1 v]
    constructor
    · rintro ⟨_, ⟨K, hK, rfl⟩, hv⟩; exact ⟨K, hK, hv⟩
    · rintro ⟨K, hK, hv⟩; exact ⟨_, ⟨K, hK, rfl⟩, hv⟩
  · intro KO hKO
    obtain ⟨K, hK, rfl⟩ := List.mem_map.1 hKO
    have hsub : ∀ d ∈ K, d ∈ L := fun d hd => (i1 d).2 ⟨K, hK, hd⟩
    obtain ⟨⟨d0, hd0⟩, _⟩ := i2 K hK
    refine ⟨fun o ho => ⟨d0, hsub d0 hd0, ?_⟩, hsub⟩
    simp only [ob, List.mem_filter, decide_eq_true_eq] at ho
    exact ho.2 d0 hd0
  · have hsubs : ∀ K ∈ Ks, ∀ d ∈ K, d ∈ L := fun K hK d hd => (i1 d).2 ⟨K, hK, hd⟩
    clear i1
    induction Ks with
    | nil => trivial
    | cons K Ks ih =>
      obtain ⟨p1, p2⟩ := List.pairwise_cons.1 i3
      obtain ⟨⟨d0, hd0⟩, hconn⟩ := i2 K (by simp)
      have hKL : ∀ d ∈ K, d ∈ L := hsubs K (by simp)
      have hob : ∀ o, o ∈ ob K ↔ ∀ d ∈ K, m.g.Edge o d := by
        intro o
        simp only [ob, List.mem_filter, decide_eq_true_eq]
        exact ⟨fun h => h.2, fun h => ⟨(hc.wf.edgeNodes _ _ (h d0 hd0)).1, h⟩⟩
      have hmem : ∀ v, BN.Member (Ks.map (fun K => (K, ob K))) v ↔ ∃ K' ∈ Ks, v ∈ K' := by
        intro v
        simp only [BN.Member, List.mem_map]
        constructor
        · rintro ⟨_, ⟨K, hK, rfl⟩, hv⟩; exact ⟨K, hK, hv⟩
        · rintro ⟨K, hK, hv⟩; exact ⟨_, ⟨K, hK, rfl⟩, hv⟩
      have hrest := ih (fun K' hK' => i2 K' (by simp [hK'])) p2 (fun K' hK' => hsubs K' (by simp [hK']))
      refine ⟨⟨fun d hd => hLn d (hKL d hd), fun o ho => ?_, fun o ho => (hob o).1 ho, hc.wf.nodesNodup.filter _, ?_⟩, ?_, hrest⟩
      · exact (hc.wf.edgeNodes _ _ ((hob o).1 ho d0 hd0)).1
      · let D : Node → Prop := fun v => C v ∨ BN.Member (Ks.map (fun K => (K, ob K))) v
        let S : List Node := (m.g.nodes.filter (fun v => decide (D v))).map mec
        let T : List Node := us.filter (fun u => decide (∃ d ∈ K, m.g.DescEq d u))
        let T' : List Node := us.filter (fun u => !decide (∃ d ∈ K, m.g.DescEq d u))
        have hDn : ∀ v, D v → v ∈ m.g.nodes := by
          rintro v (h | h)
          · exact hCn v h
          · obtain ⟨K', hK', hv⟩ := (hmem v).1 h
            exact hLn v (hsubs K' (by simp [hK']) v hv)
        have hun : ∀ u ∈ us, u ∈ m.g.nodes := fun u hu =>
          hc.nodes u (Or.inr (Dict.mem_keys.2 ⟨agent, (role_utility hc).1 (hus u hu)⟩))
        refine ⟨fun a => (T.map a).sum, fun a => (T'.map a).sum, mg, S, T, fun a => ?_, ?_, ?_, fun u v h => (h3 _ _).2 (Or.inl h), ?_, ?_⟩
        · exact sum_split us _ a
        · refine dependsOn_sum (fun u hu => ?_)
          intro a b hab
          refine hab u ⟨hu, hun u (List.mem_filter.1 hu).1⟩
        · refine dependsOn_sum (fun u hu => ?_)
          intro a b hab
          simp only [T', List.mem_filter, Bool.not_eq_true', decide_eq_false_iff_not] at hu
          exact hab u ⟨hun u hu.1, fun d hd h => hu.2 ⟨d, hd, h⟩⟩
        · intro v hv hD
          refine ⟨mec v, List.mem_map.2 ⟨v, List.mem_filter.2 ⟨hv, by simpa using hD⟩, rfl⟩, fun h => ?_, (h3 _ _).2 (Or.inr ⟨hv, rfl⟩)⟩
          exact hm.1 _ ((hc.wf.edgeNodes _ _ ((hob _).1 h d0 hd0)).1) v hv rfl
        · intro t ht hR
          simp only [T, List.mem_filter, decide_eq_true_eq] at ht
          obtain ⟨htu, d, hd, hdt⟩ := ht
          obtain ⟨s, hs, hR⟩ := reached_iff.1 hR
          obtain ⟨x, hx, rfl⟩ := List.mem_map.1 hs
          have hxD : D x := by simpa using (List.mem_filter.1 hx).2
          have hdt' : m.g.Desc d t := by
            rcases (reflTransGen_iff_eq_or_transGen.1 hdt) with e | h
            · have h1 := hL d (hKL d hd)
              have h2 := hus t htu
              rw [e, h1] at h2
              cases h2
            · exact h
          have hxK : x ∉ K := by
            intro hxK
            rcases hxD with h | h
            · exact hCL x h (hKL x hxK)
            · obtain ⟨K', hK', hv⟩ := (hmem x).1 h
              exact (p1 K' hK' x hxK).1 hv
          refine team_sep hc hm hw h3 h4 (fun d hd => hL d (hKL d hd)) hob hconn (hDn x hxD) hxK (fun e he => ?_) hd (hus t htu) hdt' hR
          rcases hxD with h | h
          · exact hC x h e (hKL e he)
          · obtain ⟨K', hK', hv⟩ := (hmem x).1 h
            exact (p1 K' hK' e he).2 x hv
      · intro v hv
        refine ⟨fun h => hCL v h (hKL v hv), fun h => ?_⟩
        obtain ⟨K', hK', hv'⟩ := (hmem v).1 h
        exact (p1 K' hK' v hv).1 hv'

end Net
end Verif
