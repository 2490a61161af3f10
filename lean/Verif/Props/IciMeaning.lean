import Verif.Lemmas.Relay
import Verif.Props.Worth
import Verif.Props.VoiComplete

/-!
# Property C86: what an instrumental control incentive means
-/

namespace Verif

open Graph Relation Macid Net

/-- an intervention does not change what can be said about nodes outside its descendants -/
theorem do_nondescendant {net : Net} (hU : net.Usable) {a x : Node} {v : Outcome} (hv : net.IntOk [(a, v)]) (hx : x ∈ net.g.nodes)
    (hnd : ¬ net.g.DescEq a x) (c : Outcome) : net.PDo [(a, v)] (fun b => decide (b x = c)) = net.P (fun b => decide (b x = c)) := by
  let U := BN.anc net.g net.g [x]
  have hU' : ∀ w, w ∈ U ↔ w ∈ net.g.nodes ∧ net.g.DescEq w x := by
    intro w
    simp only [U]
    rw [BN.mem_anc]
    simp
  have hUa : ∀ w ∈ U, w ≠ a := by
    rintro w hw rfl
    exact hnd ((hU' w).1 hw).2
  have hdep : DependsOn (fun b : Assign => if decide (b x = c) = true then (1 : Rat) else 0) (· ∈ U) := by
    intro b b' hbb
    simp only [hbb x ((hU' x).2 ⟨hx, .refl⟩)]
  rw [PDo_eq_W (fun p hp => (hv.2 p hp).1), P_eq_W]
  rw [BN.W_ancestral (doBN_prob hU.good hU.normalised hv.1 (fun p hp => (hv.2 p hp).2.1)) (U := U) (hU.good.wf.nodesNodup.filter _)
      (fun w hw => ((hU' w).1 hw).1) (fun u w huw hw => by
        exact (hU' u).2 ⟨(hU.good.wf.edgeNodes u w (mem_cutGraph.1 huw).1).1, .head (mem_cutGraph.1 huw).1 ((hU' w).1 hw).2⟩) hdep (fun _ => 0),
    BN.W_ancestral (bn_prob hU.good hU.normalised) (U := U) (hU.good.wf.nodesNodup.filter _)
      (fun w hw => ((hU' w).1 hw).1) (fun u w huw hw => by
        exact (hU' u).2 ⟨(hU.good.wf.edgeNodes u w huw).1, .head huw ((hU' w).1 hw).2⟩) hdep (fun _ => 0)]
  apply sumOver_congr
  intro b _ _
  congr 1
  unfold BN.prod
  congr 1
  apply List.map_congr_left
  intro w hw
  show (if w ∈ [a] then _ else _) = _
  rw [if_neg (by simpa using hUa w hw)]
  rfl

/-- **C86** If `admits_ici` is False then, whatever the CPDs, either interventions on the decision leave the distribution of `x` as it
is, or interventions on `x` leave the distribution of every utility as it is. -/
theorem C86_no_incentive {cid : Net} (hU : cid.Usable) (h1 : cid.m.agents.length ≤ 1) {x d : Node} (hx : x ∈ cid.g.nodes) (hd : d ∈ cid.g.nodes)
    (h : admitsIci cid d x = .ok false) :
    (∀ v, cid.IntOk [(d, v)] → ∀ c, cid.PDo [(d, v)] (fun b => decide (b x = c)) = cid.P (fun b => decide (b x = c))) ∨
    ∀ u a, cid.m.role u = .utility a → ∀ v, cid.IntOk [(x, v)] → ∀ c,
      cid.PDo [(x, v)] (fun b => decide (b u = c)) = cid.P (fun b => decide (b u = c)) := by
  have hn := (C55_between hU.roles h1 hx hd).not.1 (by rw [h]; simp)
  by_cases hdx : cid.g.DescEq d x
  · right
    intro u a hu v hv c
    refine do_nondescendant hU hv (hU.roles.nodes u (Or.inr (Dict.mem_keys.2 ⟨a, (role_utility hU.roles).1 hu⟩))) (fun q => ?_) c
    exact hn ⟨hdx, u, a, hu, q⟩
  · left
    intro v hv c
    exact do_nondescendant hU hv hx hdx c

/-! ## The other direction -/

/-- the value of `f j` when the bit is `op` -/
def pay (k : Nat) (f : Nat → Node) (j : Nat) (op : Bool) : Outcome := (relay k f false).enc (fun i => decide (i = j) && op)

theorem pay_false {k : Nat} {f : Nat → Node} {j : Nat} : pay k f j false = 0 := Wiring.enc_false _ (fun i _ => by simp)

theorem pay_true {k : Nat} {f : Nat → Node} {j : Nat} (hj : j ≤ k) : 1 ≤ pay k f j true :=
  Wiring.enc_pos _ (i := j) (List.mem_range.2 (by omega)) (by simp)

theorem pay_bit {k : Nat} {f : Nat → Node} {j : Nat} (hj : j ≤ k) (op : Bool) : (relay k f false).bit j (pay k f j op) = op := by
  unfold pay
  rw [Wiring.bit_enc (List.mem_range.2 (by omega))]
  simp

/-- the effect of interventions along the relay -/
theorem relay_do {N : Net} (hU : N.Usable) {k : Nat} {f : Nat → Node} (hs : ∀ j < k, N.g.Edge (f j) (f (j + 1))) (hf : ∀ j ≤ k, f j ∈ N.g.nodes)
    {int : List (Node × Outcome)} (hi : N.IntOk int) {i j : Nat} (hij : i ≤ j) (hj : j ≤ k) {val : Outcome} (hval : (f i, val) ∈ int)
    (hkern : ∀ j', i < j' → j' ≤ j → ∀ a, N.InDom a → (0 < N.kernel (f j') a ↔ (relay k f false).R (f j') a))
    (hfree : ∀ j', i < j' → j' ≤ j → f j' ∉ int.map (·.1)) :
    N.Mean int [] (f j) = if j = i then val else pay k f j ((relay k f false).bit i val) := by
  have hB := doBN_prob hU.good hU.normalised hi.1 (fun p hp => (hi.2 p hp).2.1)
  rw [Mean_eq hU.good (fun p hp => (hi.2 p hp).1) (hf j hj)]
  unfold EW
  rw [PDo_do_pos hU hi, div_one]
  have hdesc : ∀ p q, p < q → q ≤ k → N.g.Desc (f p) (f q) := by
    intro p q hpq
    induction q with
    | zero => omega
    | succ q ih =>
      intro hq
      by_cases e : p = q
      · subst e; exact TransGen.single (hs p (by omega))
      · exact (ih (by omega) (by omega)).tail (hs q (by omega))
  have hinj : ∀ p q, p ≤ k → q ≤ k → f p = f q → p = q := by
    intro p q hp hq e
    rcases Nat.lt_trichotomy p q with h | h | h
    · have := hdesc p q h hq; rw [e] at this; exact absurd this (hU.good.wf.acyclic _)
    · exact h
    · have := hdesc q p h hp; rw [e] at this; exact absurd this (hU.good.wf.acyclic _)
  rw [← BN.W_const hB (if j = i then val else pay k f j ((relay k f false).bit i val))]
  refine BN.W_possible hB (fun b hb => ?_)
  simp only [Ctx, List.all_nil, if_true, mul_one]
  have hset : b (f i) = val := by
    have := hb.2 (f i) (hf i (by omega))
    change 0 < (if f i ∈ int.map (·.1) then (if ∀ p ∈ int, p.1 = f i → b (f i) = p.2 then (1 : Rat) else 0) else _) at this
    rw [if_pos (List.mem_map.2 ⟨_, hval, rfl⟩)] at this
    by_contra hc
    rw [if_neg (fun q => hc (q _ hval rfl))] at this
    exact lt_irrefl _ this
  have hrule : ∀ j', i < j' → j' ≤ j → (relay k f false).R (f j') b := by
    intro j' h1 h2
    have := hb.2 (f j') (hf j' (by omega))
    change 0 < (if f j' ∈ int.map (·.1) then _ else N.kernel (f j') b) at this
    rw [if_neg (hfree j' h1 h2)] at this
    exact (hkern j' h1 h2 b hb.1).1 this
  have hread : ∀ j', i ≤ j' → j' ≤ j → (relay k f false).read b j' = (relay k f false).bit i val := by
    intro j'
    induction j' with
    | zero =>
      intro h1 _
      have : i = 0 := by omega
      subst this
      unfold Wiring.read
      show Wiring.bit _ _ (b (f 0)) = _
      rw [hset]
    | succ j' ih =>
      intro h1 h2
      by_cases e : i = j' + 1
      · subst e
        unfold Wiring.read
        show Wiring.bit _ _ (b (f (j' + 1))) = _
        rw [hset]
      · rcases (hrule (j' + 1) (by omega) h2).2 (j' + 1) (List.mem_range.2 (by omega)) rfl with q | q
        · exact absurd q (fun x => x)
        · rw [q]; exact ih (by omega) (by omega)
  by_cases e : j = i
  · subst e; rw [if_pos rfl]; exact hset
  · rw [if_neg e, (hrule j (by omega) (le_refl _)).1]
    unfold pay
    apply Wiring.enc_congr
    intro i' hi'
    have hi'' : i' ≤ k := Nat.le_of_lt_succ (List.mem_range.1 hi')
    unfold Wiring.here
    show (decide (f i' = f j) && _) = _
    by_cases e' : i' = j
    · subst e'; simp [hread i' hij (le_refl _)]
    · have : f i' ≠ f j := fun q => e' (hinj i' j hi'' hj q)
      simp [this, e']

/-- **C86** If `admits_ici` is True, the diagram can be given CPDs under which the decision affects `x`, `x` affects a utility, the
decision affects that utility, and it does so through `x` only: with `x` held fixed it has no effect. -/
theorem C86_incentive {net : Net} (hfr : net.Fresh) (hc : net.m.Consistent) (hb : net.base = Macid.new ∨ net.base = Macid.newCid) (hst : net.Staffed)
    (h1 : net.m.agents.length ≤ 1) {x d : Node} (hx : x ∈ net.g.nodes) (hd : d ∈ net.g.nodes) (h : admitsIci net d x = .ok true) :
    ∃ rels cid, net.addCpds rels = (cid, .ok ()) ∧ cid.m = net.m ∧ cid.Usable ∧ ∃ u a, cid.m.role u = .utility a ∧ ∃ v0 v1 w0 w1,
      cid.IntOk [(d, v0)] ∧ cid.IntOk [(d, v1)] ∧ cid.IntOk [(x, w0)] ∧ cid.IntOk [(x, w1)] ∧
      cid.Mean [(d, v0)] [] x < cid.Mean [(d, v1)] [] x ∧ cid.Mean [(x, w0)] [] u < cid.Mean [(x, w1)] [] u ∧
      cid.Mean [(d, v0)] [] u < cid.Mean [(d, v1)] [] u ∧
      (x ≠ d → ∀ v v' w, cid.IntOk [(d, v), (x, w)] → cid.IntOk [(d, v'), (x, w)] →
        cid.Mean [(d, v), (x, w)] [] u = cid.Mean [(d, v'), (x, w)] [] u) := by
  have hw := hc.wf
  obtain ⟨hdx, u, a, hu, hxu⟩ := (C55_between hc h1 hx hd).1 h
  obtain ⟨k1, f1, f10, f1k, f1s⟩ := exists_walk hdx
  obtain ⟨k2, f2, f20, f2k, f2s⟩ := exists_walk hxu
  obtain ⟨k, f, hk, f0, fm, fk, fs⟩ : ∃ (k : Nat) (f : Nat → Node), k1 ≤ k ∧ f 0 = d ∧ f k1 = x ∧ f k = u ∧ ∀ j < k, net.g.Edge (f j) (f (j + 1)) := by
    refine ⟨k1 + k2, fun j => if j ≤ k1 then f1 j else f2 (j - k1), by omega, by simp [f10], by simp [f1k], ?_, fun j hj => ?_⟩
    · by_cases e : k2 = 0
      · subst e; simp [f1k, ← f2k, f20]
      · simp [e, f2k]
    · by_cases e : j < k1
      · simp only [show j ≤ k1 by omega, show j + 1 ≤ k1 by omega, if_true]; exact f1s j e
      · have := f2s (j - k1) (by omega)
        simp only [show ¬ j + 1 ≤ k1 by omega, if_false]
        rw [show j + 1 - k1 = j - k1 + 1 by omega]
        by_cases e2 : j = k1
        · subst e2; simp only [le_refl, if_true]; rw [f1k, ← f20]; simpa using this
        · simp only [show ¬ j ≤ k1 by omega, if_false]; exact this
  have hf : ∀ j ≤ k, f j ∈ net.g.nodes := by
    intro j hj
    by_cases e : j = 0
    · subst e; rw [f0]; exact hd
    · have := fs (j - 1) (by omega)
      rw [show j - 1 + 1 = j by omega] at this
      exact (hw.edgeNodes _ _ this).2
  have hloc : (relay k f false).Local net.g := relay_local fs
  obtain ⟨rels, cid, a1, a2, _, _, _, a6, _, a8, a9⟩ := Net.allowing hfr hw (free := fun _ => False) (fun _ => (relay k f false).dom_sorted)
    (fun _ => (relay k f false).dom_ne) (Wiring.allows hw hloc)
  have hU := a9 hc hb hst
  have hg : cid.g = net.g := by show cid.m.g = net.m.g; rw [a2]
  have hIn : ∀ v ∈ net.g.nodes, ∀ c ∈ (relay k f false).dom, cid.IntOk [(v, c)] := by
    intro v hv c hc
    refine ⟨by simp, fun p hp => ?_⟩
    rw [List.mem_singleton] at hp
    subst hp
    refine ⟨hg ▸ hv, by rw [a6 v hv]; exact hc, Or.inl ?_⟩
    rw [a6 v hv]
    exact (relay k f false).dom_sorted.imp (fun h => le_of_lt h)
  have hpay : ∀ j op, pay k f j op ∈ (relay k f false).dom := fun j op => Wiring.enc_dom _ _
  have hdesc : ∀ p q, p < q → q ≤ k → net.g.Desc (f p) (f q) := by
    intro p q hpq
    induction q with
    | zero => omega
    | succ q ih =>
      intro hq
      by_cases e : p = q
      · subst e; exact TransGen.single (fs p (by omega))
      · exact (ih (by omega) (by omega)).tail (fs q (by omega))
  have hne : ∀ p q, p < q → q ≤ k → f q ≠ f p := fun p q h1 h2 e => by
    have := hdesc p q h1 h2
    rw [e] at this
    exact hw.acyclic _ this
  have hdo := fun {int} (hi : cid.IntOk int) {i j} hij (hj : j ≤ k) {val} hval => relay_do hU (k := k) (f := f) (fun j hj => by rw [hg]; exact fs j hj)
    (fun j hj => by rw [hg]; exact hf j hj) hi (i := i) (j := j) (val := val) hij hj hval (fun j' _ h2 => a8 _ (hf j' (by omega)) (fun q => q))
  have hone : ∀ i j, i ≤ j → j ≤ k → ∀ op, cid.Mean [(f i, pay k f i op)] [] (f j) = pay k f j op := by
    intro i j hij hj op
    rw [hdo (hIn (f i) (hf i (by omega)) _ (hpay i op)) hij hj (val := pay k f i op) (by simp) (fun j' h1 h2 => by simpa using hne i j' h1 (by omega)),
      pay_bit (by omega)]
    split
    · rename_i e; rw [e]
    · rfl
  have hlt : ∀ i j, i ≤ j → j ≤ k → cid.Mean [(f i, pay k f i false)] [] (f j) < cid.Mean [(f i, pay k f i true)] [] (f j) := by
    intro i j hij hj
    rw [hone i j hij hj, hone i j hij hj, pay_false]
    have := pay_true (f := f) hj
    linarith
  have hd0 := hIn d hd
  have hx0 := hIn x hx
  refine ⟨rels, cid, a1, a2, hU, u, a, by rw [a2]; exact hu, pay k f 0 false, pay k f 0 true, pay k f k1 false, pay k f k1 true, hd0 _ (hpay _ _), hd0 _ (hpay _ _),
    hx0 _ (hpay _ _), hx0 _ (hpay _ _), ?_, ?_, ?_, fun hxd v v' w hi hi' => ?_⟩
  · have := hlt 0 k1 (by omega) hk; rwa [f0, fm] at this
  · have := hlt k1 k hk (le_refl _); rwa [fm, fk] at this
  · have := hlt 0 k (by omega) (le_refl _); rwa [f0, fk] at this
  · have hk0 : k1 ≠ 0 := by rintro rfl; exact hxd (fm.symm.trans f0)
    have key : ∀ v, cid.IntOk [(d, v), (x, w)] → cid.Mean [(d, v), (x, w)] [] u = if k = k1 then w else pay k f k ((relay k f false).bit k1 w) := by
      intro v hi
      rw [← fk]
      refine hdo hi hk (le_refl _) (by rw [fm]; simp) (fun j' h1 h2 q => ?_)
      simp only [List.map_cons, List.map_nil, List.mem_cons, List.not_mem_nil, or_false] at q
      rcases q with q | q
      · exact hne 0 j' (by omega) h2 (by rw [q, f0])
      · exact hne k1 j' h1 h2 (by rw [q, fm])
    rw [key v hi, key v' hi']

/-- the hypotheses of `C86_incentive` are met by `D → M → U`; `O` gives no incentive -/
example : ∃ net : Net, net.Fresh ∧ net.m.Consistent ∧ net.Staffed ∧ admitsIci net "D" "M" = .ok true ∧ admitsIci net "D" "O" = .ok false := by
  refine ⟨⟨⟨⟨["O", "D", "M", "U"], [("O", "D"), ("D", "M"), ("M", "U")]⟩, [(0, ["D"])], [(0, ["U"])], [("D", 0)], [("U", 0)]⟩, [], [], [], Macid.new⟩,
    ⟨rfl, rfl, rfl⟩, C15_constructor_consistent [("O", "D"), ("D", "M"), ("M", "U")] [(0, ["D"])] [(0, ["U"])] _
    (by decide +kernel) (by decide) (by decide) (by decide) (by decide), ⟨fun a => Iff.rfl, fun a ha => Or.inl ?_⟩, by decide +kernel, by decide +kernel⟩
  have : a = 0 := by simpa [Dict.keys] using ha
  subst this
  exact ⟨⟨"D", by decide⟩, ⟨"U", by decide⟩⟩

end Verif
