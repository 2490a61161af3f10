import Verif.Lemmas.Gate
import Verif.Lemmas.Realize

/-!
# What control gains
-/

namespace Verif

open Graph Relation Macid Net

theorem BN.IsRule.congr {B C : BN} {v : Node} {σ : Assign → Rat} (h : B.IsRule v σ) (hg : C.g = B.g) (hd : ∀ u, u = v ∨ B.g.Edge u v → C.dom u = B.dom u) :
    C.IsRule v σ := by
  refine ⟨by rw [hg]; exact h.scope, fun a ha => ?_, fun a ha => ?_⟩
  · rw [hd v (Or.inl rfl)]
    exact h.norm a (fun p hp => by rw [← hd p (Or.inr hp)]; exact ha p (hg ▸ hp))
  · exact h.nonneg a (fun u hu => by rw [← hd u hu]; exact ha u (hg ▸ hu))

/-- the network follows the wiring, `d` is free -/
structure Follows {ι : Type} [DecidableEq ι] (net : Net) (d : Node) (W : Wiring ι) (N : Net) : Prop where
  usable : N.Usable
  same : N.m = net.m
  dom : ∀ v ∈ net.g.nodes, N.dom v = W.dom
  kern : ∀ v ∈ net.g.nodes, v ≠ d → ∀ a, N.InDom a → (0 < N.kernel v a ↔ W.R v a)

/-- Two wirings differ at `x` only; with the first the expected utility is below `B`, with the second and a suitable rule at `d` it
reaches `B`. -/
theorem control_gain {ι : Type} [DecidableEq ι] {net : Net} {d x : Node} (hf : net.Fresh) (hc : net.m.Consistent)
    (hb : net.base = Macid.new ∨ net.base = Macid.newCid) (hst : net.Staffed) (hdec : ∀ e b, net.m.role e = .decision b ↔ e = d ∧ b = 0)
    (hx : x ∈ net.g.nodes) (hxd : x ≠ d) {W0 W1 : Wiring ι} (hcells : W1.cells = W0.cells) (hl0 : W0.Local net.g) (hl1 : W1.Local net.g)
    (hsame : ∀ v, v ≠ x → ∀ a, W0.R v a ↔ W1.R v a) {B : Rat} {σ : Assign → Rat} (hσ : ∀ N, Follows net d W0 N → N.bn.IsRule d σ)
    (hlow : ∀ N, Follows net d W0 N → N.EU 0 < B)
    (hhigh : ∀ N, Follows net d W1 N → (∀ a, N.InDom a → N.kernel d a = σ a) → B ≤ N.EU 0) :
    ∃ rels cid, net.addCpds rels = (cid, .ok ()) ∧ cid.m = net.m ∧ cid.Usable ∧ ∃ r, cid.IsMaxEU 0 r ∧ r < B ∧
      ∃ n, n.Usable ∧ OnlyRules cid (x :: cid.m.decisions) n ∧ B ≤ n.EU 0 := by
  have hw := hc.wf
  have hdom : W1.dom = W0.dom := by unfold Wiring.dom; rw [hcells]
  have hdn : d ∈ net.g.nodes := hc.nodes d (Or.inl (decisions_role.2 ⟨0, (hdec d 0).2 ⟨rfl, rfl⟩⟩))
  obtain ⟨rels, cid, k1, k2, _, _, _, k6, _, k8, k9⟩ := Net.allowing hf hw (free := (· = d)) (fun _ => W0.dom_sorted)
    (fun _ => W0.dom_ne) (Wiring.allows hw hl0)
  have hU := k9 hc hb hst
  have hg : cid.g = net.g := by show cid.m.g = net.m.g; rw [k2]
  have hdc : ∀ e, e ∈ cid.m.decisions ↔ e = d := by
    intro e
    rw [decisions_role, k2]
    constructor
    · rintro ⟨b, q⟩; exact ((hdec e b).1 q).1
    · rintro rfl; exact ⟨0, (hdec e 0).2 ⟨rfl, rfl⟩⟩
  have hfol : ∀ n, n.Usable → OnlyRules cid cid.m.decisions n → Follows net d W0 n := by
    intro n h1 h2
    refine ⟨h1, by rw [h2.m, k2], fun v hv => by rw [h2.dom, k6 v hv], fun v hv hvd a ha => ?_⟩
    rw [h2.kernel (fun q => hvd ((hdc v).1 q))]
    exact k8 v hv hvd a ((h2.inDom a).1 ha)
  have hself : Follows net d W0 cid := hfol cid hU (.rfl' _ _)
  obtain ⟨r, hr⟩ := exists_maxEU (agent := 0) hU (fun e b q => by rw [k2] at q; exact ((hdec e b).1 q).2)
  refine ⟨rels, cid, k1, k2, hU, r, hr, ?_, ?_⟩
  · obtain ⟨n, q1, q2, rfl⟩ := hr.reached
    exact hlow n (hfol n q1 q2)
  have hA := Wiring.allows hw hl1
  have hspread : cid.bn.IsRule x (spread (fun _ => W1.dom) W1.R x) := by
    refine (hA.rule hx (fun _ _ => 0)).congr hg (fun u hu => ?_)
    have hu' : u ∈ net.g.nodes := by
      rcases hu with rfl | hu
      · exact hx
      · exact (hw.edgeNodes _ _ hu).1
    show cid.dom u = W1.dom
    rw [k6 u hu', hdom]
  obtain ⟨n, n1, n2, n3⟩ := realize [x, d] hU (by simp [hxd]) (by simp [hg, hx, hdn])
    (σ := fun v => if v = d then σ else spread (fun _ => W1.dom) W1.R x) (by
      intro v hv
      simp only [List.mem_cons, List.not_mem_nil, or_false] at hv
      rcases hv with rfl | rfl
      · rw [if_neg hxd]; exact hspread
      · rw [if_pos rfl]; exact hσ cid hself)
  refine ⟨n, n1, n2.congr (fun w => by simp [hdc]), hhigh n ⟨n1, by rw [n2.m, k2], fun v hv => by rw [n2.dom, k6 v hv, hdom], fun v hv hvd a ha => ?_⟩ (fun a ha => ?_)⟩
  · have ha' := (n2.inDom a).1 ha
    by_cases e : v = x
    · subst e
      rw [n3 v (by simp) a ha', if_neg hxd]
      refine hA.pos hv ?_
      have := ha' v (hg ▸ hv)
      rwa [k6 v hv, ← hdom] at this
    · rw [n2.kernel (by simp [e, hvd]), k8 v hv hvd a ha']
      exact hsame v e a
  · rw [n3 d (by simp) a ((n2.inDom a).1 ha), if_pos rfl]

/-! ## Passing a bit straight to a utility -/

/-- a bit is passed on along `f` -/
def relay (k : Nat) (f : Nat → Node) (op : Bool) : Wiring Nat :=
  ⟨List.range (k + 1), f, fun _ => False, fun j β => if j = 0 then op else β (j - 1)⟩

theorem relay_local {k : Nat} {f : Nat → Node} {op : Bool} {g : Graph} (hs : ∀ j < k, g.Edge (f j) (f (j + 1))) : (relay k f op).Local g := by
  refine ⟨fun i hi _ β β' hβ => ?_⟩
  have hi' : i < k + 1 := List.mem_range.1 hi
  show (if i = 0 then op else β (i - 1)) = if i = 0 then op else β' (i - 1)
  by_cases h0 : i = 0
  · simp [h0]
  · rw [if_neg h0, if_neg h0]
    refine hβ (i - 1) (List.mem_range.2 (by omega)) (Or.inl ?_)
    have := hs (i - 1) (by omega)
    rwa [show i - 1 + 1 = i by omega] at this

theorem relay_op {k : Nat} {f : Nat → Node} {op op' : Bool} {v : Node} (hv : v ≠ f 0) {a : Assign} (h : (relay k f op).R v a) : (relay k f op').R v a := by
  refine ⟨h.1, fun i hi e => ?_⟩
  rcases h.2 i hi e with q | q
  · exact Or.inl q
  · right
    have h0 : i ≠ 0 := by rintro rfl; exact hv e.symm
    refine q.trans ?_
    show (if i = 0 then op else _) = if i = 0 then op' else _
    rw [if_neg h0, if_neg h0]
    rfl

theorem Follows.g {ι : Type} [DecidableEq ι] {net N : Net} {d : Node} {W : Wiring ι} (h : Follows net d W N) : N.g = net.g := by
  show N.m.g = net.m.g
  rw [h.same]

theorem relay_read {net N : Net} {k : Nat} {f : Nat → Node} {op : Bool} {d : Node} (hN : Follows net d (relay k f op) N)
    (hf : ∀ j ≤ k, f j ∈ net.g.nodes ∧ f j ≠ d) {a : Assign} (ha : N.bn.Possible a) {j : Nat} (hj : j ≤ k) : (relay k f op).read a j = op := by
  induction j with
  | zero =>
    have := ((hN.kern _ (hf 0 hj).1 (hf 0 hj).2 a ha.1).1 (ha.2 _ (hN.g ▸ (hf 0 hj).1 : f 0 ∈ N.g.nodes))).2 0 (List.mem_range.2 (by omega)) rfl
    rcases this with q | q
    · exact absurd q (fun x => x)
    · exact q
  | succ j ih =>
    have := ((hN.kern _ (hf _ hj).1 (hf _ hj).2 a ha.1).1 (ha.2 _ (hN.g ▸ (hf _ hj).1 : f (j + 1) ∈ N.g.nodes))).2 (j + 1) (List.mem_range.2 (by omega)) rfl
    rcases this with q | q
    · exact absurd q (fun x => x)
    · rw [q]; exact ih (by omega)

theorem Wiring.enc_false {ι : Type} [DecidableEq ι] (W : Wiring ι) {β : ι → Bool} (h : ∀ i ∈ W.cells, β i = false) : W.enc β = 0 := by
  have : Nat.ofBits (fun k : Fin W.cells.length => β W.cells[k]) = 0 := by
    apply Nat.eq_of_testBit_eq
    intro k
    by_cases hk : k < W.cells.length
    · rw [Nat.testBit_ofBits_lt _ _ hk]; simpa using h _ (List.getElem_mem _)
    · rw [Nat.testBit_ofBits_ge _ _ (by omega)]; simp
  unfold Wiring.enc
  rw [this]; simp

theorem Wiring.enc_pos {ι : Type} [DecidableEq ι] (W : Wiring ι) {β : ι → Bool} {i : ι} (hi : i ∈ W.cells) (h : β i = true) : 1 ≤ W.enc β := by
  obtain ⟨n, _, hn⟩ := Wiring.mem_dom.1 (W.enc_dom β)
  have h0 : n ≠ 0 := by
    rintro rfl
    have h1 := Wiring.bit_enc hi β
    rw [hn, h] at h1
    simp [Wiring.bit] at h1
  rw [hn]
  exact_mod_cast Nat.one_le_iff_ne_zero.2 h0

theorem Wiring.enc_nonneg {ι : Type} [DecidableEq ι] (W : Wiring ι) (β : ι → Bool) : 0 ≤ W.enc β := by
  obtain ⟨n, _, hn⟩ := Wiring.mem_dom.1 (W.enc_dom β)
  rw [hn]; exact Nat.cast_nonneg n

end Verif
