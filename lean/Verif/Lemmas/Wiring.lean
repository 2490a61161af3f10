import Verif.Lemmas.Support
import Batteries.Data.Nat.Lemmas

/-!
# Networks of bits

A node may carry many bits, one for each cell placed at it; its value is the number with these bits.
-/

namespace Verif

open Graph Relation Macid

/-- cells placed at nodes, each following a rule that reads cells at parent nodes, or tossing a coin -/
structure Wiring (ι : Type) where
  cells : List ι
  node : ι → Node
  coin : ι → Prop
  rule : ι → (ι → Bool) → Bool

namespace Wiring

variable {ι : Type} [DecidableEq ι]

/-- the outcomes of every node -/
def dom (W : Wiring ι) : List Outcome := (List.range (2 ^ W.cells.length)).map (fun n : Nat => (n : Rat))

/-- bit of a cell in a value -/
def bit (W : Wiring ι) (i : ι) (x : Outcome) : Bool := x.num.toNat.testBit (W.cells.idxOf i)

/-- value with the bits in `β` -/
def enc (W : Wiring ι) (β : ι → Bool) : Outcome :=
  (Nat.ofBits (fun k : Fin W.cells.length => β W.cells[k]) : Nat)

/-- content of a cell -/
def read (W : Wiring ι) (a : Assign) (i : ι) : Bool := W.bit i (a (W.node i))

/-- the bits of `β` at node `v` -/
def here (W : Wiring ι) (v : Node) (β : ι → Bool) (i : ι) : Bool := decide (W.node i = v) && β i

/-- what the wiring allows at `v` -/
def R (W : Wiring ι) (v : Node) (a : Assign) : Prop :=
  a v = W.enc (W.here v (W.read a)) ∧ ∀ i ∈ W.cells, W.node i = v → W.coin i ∨ W.read a i = W.rule i (W.read a)

/-- rules read parents and coins of the same node only -/
structure Local (W : Wiring ι) (g : Graph) : Prop where
  loc : ∀ i ∈ W.cells, ¬ W.coin i → ∀ β β' : ι → Bool, (∀ j ∈ W.cells, g.Edge (W.node j) (W.node i) ∨ (W.node j = W.node i ∧ W.coin j) → β j = β' j) →
    W.rule i β = W.rule i β'

theorem mem_dom {W : Wiring ι} {x : Outcome} : x ∈ W.dom ↔ ∃ n : Nat, n < 2 ^ W.cells.length ∧ x = n := by
  simp only [dom, List.mem_map, List.mem_range]
  constructor
  · rintro ⟨n, h, rfl⟩; exact ⟨n, h, rfl⟩
  · rintro ⟨n, h, rfl⟩; exact ⟨n, h, rfl⟩

theorem dom_sorted (W : Wiring ι) : W.dom.Pairwise (· < ·) := by
  unfold dom
  rw [List.pairwise_map]
  refine List.Pairwise.imp (fun {a b} h => ?_) (List.pairwise_lt_range (n := 2 ^ W.cells.length))
  exact_mod_cast h

theorem enc_dom (W : Wiring ι) (β : ι → Bool) : W.enc β ∈ W.dom :=
  mem_dom.2 ⟨_, Nat.ofBits_lt_two_pow _, rfl⟩

theorem dom_ne (W : Wiring ι) : W.dom ≠ [] := List.ne_nil_of_mem (W.enc_dom (fun _ => false))

theorem bit_enc {W : Wiring ι} {i : ι} (hi : i ∈ W.cells) (β : ι → Bool) : W.bit i (W.enc β) = β i := by
  have hl := List.idxOf_lt_length_iff.2 hi
  unfold bit enc
  have e : ∀ n : Nat, ((n : Rat)).num.toNat = n := fun n => by simp
  rw [e, Nat.testBit_ofBits_lt _ _ hl]
  simp

theorem enc_congr {W : Wiring ι} {β β' : ι → Bool} (h : ∀ i ∈ W.cells, β i = β' i) : W.enc β = W.enc β' := by
  unfold enc
  congr 2
  funext k
  exact h _ (List.getElem_mem _)

theorem here_mem {W : Wiring ι} {i : ι} {β : ι → Bool} : W.here (W.node i) β i = β i := by simp [here]

/-- the assignment of `β` -/
def assign (W : Wiring ι) (β : ι → Bool) (v : Node) : Outcome := W.enc (W.here v β)

theorem read_assign {W : Wiring ι} {β : ι → Bool} {i : ι} (hi : i ∈ W.cells) : W.read (W.assign β) i = β i := by
  unfold read assign
  rw [bit_enc hi, here_mem]

theorem here_congr {W : Wiring ι} {v : Node} {β β' : ι → Bool} (h : ∀ i ∈ W.cells, W.node i = v → β i = β' i) :
    W.enc (W.here v β) = W.enc (W.here v β') := by
  apply enc_congr
  intro i hi
  unfold here
  by_cases e : W.node i = v
  · simp [e, h i hi e]
  · simp [e]

theorem assign_dom {W : Wiring ι} {β : ι → Bool} {v : Node} : W.assign β v ∈ W.dom := W.enc_dom _

theorem R_scope {W : Wiring ι} {g : Graph} (hl : W.Local g) {v : Node} {a b : Assign} (hab : ∀ u, u = v ∨ g.Edge u v → a u = b u)
    (h : W.R v a) : W.R v b := by
  have hr : ∀ i, W.node i = v ∨ g.Edge (W.node i) v → W.read a i = W.read b i := fun i hi => by
    unfold read; rw [hab _ hi]
  refine ⟨?_, fun i hi hv => ?_⟩
  · rw [← hab v (Or.inl rfl), h.1]
    exact here_congr (fun i _ e => hr i (Or.inl e))
  · rw [← hr i (Or.inl hv)]
    by_cases hc : W.coin i
    · exact Or.inl hc
    · rw [← hl.loc i hi hc (W.read a) (W.read b) (fun j _ hj => hr j (hj.elim (fun q => Or.inr (hv ▸ q)) (fun q => Or.inl (q.1.trans hv))))]
      exact h.2 i hi hv

theorem allows {W : Wiring ι} {g : Graph} (hw : g.WF) (hl : W.Local g) : Allows g (fun _ => W.dom) W.R := by
  refine ⟨fun v _ a b hab h => R_scope hl hab h, fun v _ a => ?_⟩
  classical
  let α : ι → Bool := fun i => decide (W.node i ≠ v) && W.read a i
  let β : ι → Bool := fun i => if W.coin i then false else W.rule i α
  refine ⟨W.enc (W.here v β), W.enc_dom _, ?_⟩
  have hr : ∀ i ∈ W.cells, W.node i = v → W.read (Assign.upd a v (W.enc (W.here v β))) i = β i := by
    intro i hi hv
    unfold read
    rw [hv, Assign.upd_same, bit_enc hi, ← hv, here_mem]
  refine ⟨?_, fun i hi hv => ?_⟩
  · rw [Assign.upd_same]
    exact (here_congr hr).symm
  · rw [hr i hi hv]
    by_cases hc : W.coin i
    · exact Or.inl hc
    · right
      simp only [β, if_neg hc]
      apply hl.loc i hi hc
      intro j hj hjv
      rcases hjv with hjv | ⟨hjv, hjc⟩
      · have hne : W.node j ≠ v := by
          intro e
          rw [e, hv] at hjv
          exact hw.acyclic _ (TransGen.single hjv)
        unfold read
        rw [Assign.upd_ne _ _ hne]
        simp [α, hne, read]
      · rw [hr j hj (hjv.trans hv)]
        simp [α, β, hjc, hjv, hv]

theorem Local.mono {W : Wiring ι} {g g' : Graph} (h : W.Local g) (hs : ∀ u v, g.Edge u v → g'.Edge u v) : W.Local g' :=
  ⟨fun i hi hc β β' hβ => h.loc i hi hc β β' (fun j hj he => hβ j hj (he.imp (hs _ _) id))⟩

/-- `β` obeys the rules -/
def Solves (W : Wiring ι) (β : ι → Bool) : Prop := ∀ i ∈ W.cells, W.coin i ∨ β i = W.rule i β

theorem R_of_read {W : Wiring ι} {g : Graph} (hl : W.Local g) {β : ι → Bool} {a : Assign} {v : Node} (hr : ∀ i ∈ W.cells, W.read a i = β i)
    (hv : a v = W.assign β v) (hβ : ∀ i ∈ W.cells, W.node i = v → W.coin i ∨ β i = W.rule i β) : W.R v a := by
  refine ⟨?_, fun i hi hv => ?_⟩
  · rw [hv]
    unfold assign
    exact here_congr (fun i hi _ => (hr i hi).symm)
  · rw [hr i hi]
    by_cases hc : W.coin i
    · exact Or.inl hc
    · rw [hl.loc i hi hc (W.read a) β (fun j hj _ => hr j hj)]
      exact hβ i hi hv

theorem R_assign {W : Wiring ι} {g : Graph} (hl : W.Local g) {β : ι → Bool} (hβ : W.Solves β) (v : Node) : W.R v (W.assign β) :=
  R_of_read hl (fun _ hi => read_assign hi) rfl (fun i hi _ => hβ i hi)

end Wiring

end Verif
