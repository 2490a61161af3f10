import Verif.Spec.RandomCpd
import Verif.Lemmas.SubgameNet
import Verif.Props.RandomGame

/-!
# Random distributions (C74, C80)
-/

namespace Verif

open Random Net

namespace Random

theorem tempSeed_eq {σ α : Type} (rng : Rng σ) (seed : Int) (body : Prog σ α) (s : σ) :
    tempSeed rng seed body s = (if 0 ≤ seed ∧ seed < 2 ^ 32 then (body (rng.fromSeed seed.toNat)).1 else .error .value, s) := by
  unfold tempSeed Prog.bind getState seedWith
  dsimp only
  by_cases h : 0 ≤ seed ∧ seed < 2 ^ 32
  · rw [if_pos h, if_pos h]
    rfl
  · rw [if_neg h, if_neg h]

theorem call_eq {σ : Type} (rng : Rng σ) (hash : PV → Int) (c : RandomCpd) (pv : PV) (s : σ) :
    c.call rng hash pv s =
      (match (tempSeed rng (c.seed + hash pv % 2 ^ 31 - 1) (rng.dirichlet (List.replicate c.domain.length c.smoothness)) s).1 with
        | .error e => .error e
        | .ok probs => probDict c.domain probs, s) := by
  unfold RandomCpd.call Prog.bind
  rw [tempSeed_eq]
  dsimp only
  split
  · rename_i e s' h
    simp only [Prod.mk.injEq] at h
    rw [h.1, ← h.2]
  · rename_i x s' h
    simp only [Prod.mk.injEq] at h
    rw [h.1, ← h.2]
    rfl

end Random

/-- **C74** `with temp_seed(seed)` restores the state of numpy's generator whatever the body does with it and also if the body or the
seeding raises; the body's result is that of a freshly seeded generator, whatever the state was; an illegal seed is a ValueError. -/
theorem C74_temp_seed {σ α : Type} (rng : Rng σ) (seed : Int) (body : Prog σ α) :
    Untouched (tempSeed rng seed body) ∧ Reproducible (tempSeed rng seed body) ∧
    (0 ≤ seed → seed < 2 ^ 32 → ∀ s, (tempSeed rng seed body s).1 = (body (rng.fromSeed seed.toNat)).1) ∧
    (¬ (0 ≤ seed ∧ seed < 2 ^ 32) → ∀ s, (tempSeed rng seed body s).1 = .error .value) := by
  refine ⟨fun s => by rw [tempSeed_eq], fun s s' => by rw [tempSeed_eq, tempSeed_eq], fun h1 h2 s => ?_, fun h s => ?_⟩
  · rw [tempSeed_eq, if_pos ⟨h1, h2⟩]
  · rw [tempSeed_eq, if_neg h]

/-- **C74** Calling a `RandomCPD` leaves numpy's generator as it was, whether or not the call raises. -/
theorem C74_restores_state {σ : Type} (rng : Rng σ) (hash : PV → Int) (c : RandomCpd) (pv : PV) : Untouched (c.call rng hash pv) := by
  intro s
  rw [call_eq]

/-- **C74** The distribution for given parent values is always the same, whatever has happened to numpy's generator. -/
theorem C74_same_distribution {σ : Type} (rng : Rng σ) (hash : PV → Int) (c : RandomCpd) (pv : PV) : Reproducible (c.call rng hash pv) := by
  intro s s'
  rw [call_eq, call_eq, tempSeed_eq, tempSeed_eq]

/-- **C74** In any sequence of calls of any random CPDs, some of which may raise, each call gives what it would have given on its own, and
the generator is as it was. -/
theorem C74_history {σ : Type} (rng : Rng σ) (hash : PV → Int) : ∀ (l : List (RandomCpd × PV)) (s s' : σ),
    calls rng hash l s = (l.map (fun p => (p.1.call rng hash p.2 s').1), s)
  | [], s, s' => rfl
  | (c, pv) :: rest, s, s' => by
    unfold calls
    have h1 := C74_restores_state rng hash c pv s
    have h2 := C74_same_distribution rng hash c pv s s'
    generalize c.call rng hash pv s = x at h1 h2
    obtain ⟨r, t⟩ := x
    dsimp only at h1 h2 ⊢
    subst h1
    rw [C74_history rng hash rest t s']
    simp [h2]

namespace Random

theorem fold_new : ∀ {domain : List Outcome} {probs : List Rat} {d : Dict Outcome (Option Rat)}, domain.Nodup → (∀ x ∈ domain, x ∉ d.keys) →
    (domain.zip probs).foldl (fun d p => Dict.set d p.1 (some p.2)) d = d ++ (domain.zip probs).map (fun p => (p.1, some p.2))
  | [], probs, d, _, _ => by simp
  | _ :: _, [], d, _, _ => by simp
  | y :: ys, p :: ps, d, h, hd => by
    simp only [List.nodup_cons] at h
    simp only [List.zip_cons_cons, List.foldl_cons]
    rw [set_new (hd y (by simp))]
    rw [fold_new h.2 (fun x hx => ?_)]
    · simp
    · simp only [Dict.keys, List.map_append, List.map_cons, List.map_nil, List.mem_append, List.mem_singleton]
      rintro (hx' | rfl)
      · exact hd x (by simp [hx]) hx'
      · exact h.1 hx

theorem probDict_ok {domain : List Outcome} {probs : List Rat} (hd : domain.Nodup) (hl : probs.length = domain.length) :
    probDict domain probs = .ok ((domain.zip probs).map (fun p => (p.1, some p.2))) := by
  unfold probDict
  rw [if_neg (by omega), fold_new hd (by simp [Dict.keys])]
  simp

theorem seed_legal {seed : Int} (h1 : 1 ≤ seed) (h2 : seed ≤ 2 ^ 31 + 1) (h : Int) : 0 ≤ seed + h % 2 ^ 31 - 1 ∧ seed + h % 2 ^ 31 - 1 < 2 ^ 32 := by
  have := Int.emod_nonneg h (b := 2 ^ 31) (by decide)
  have := Int.emod_lt_of_pos h (b := 2 ^ 31) (by decide)
  omega

theorem call_ok {σ : Type} {rng : Rng σ} (hr : rng.Sound) {hash : PV → Int} {c : RandomCpd} (hs : 0 < c.smoothness) (hd : c.domain.Nodup)
    (hne : c.domain ≠ []) {pv : PV} (hl : 0 ≤ c.seed + hash pv % 2 ^ 31 - 1 ∧ c.seed + hash pv % 2 ^ 31 - 1 < 2 ^ 32) (s : σ) :
    ∃ probs, (c.call rng hash pv s).1 = .ok ((c.domain.zip probs).map (fun p => (p.1, some p.2))) ∧ probs.length = c.domain.length ∧
      (∀ p ∈ probs, 0 ≤ p) ∧ probs.sum = 1 := by
  obtain ⟨probs, h1, h2, h3, h4⟩ := hr (List.replicate c.domain.length c.smoothness)
    (rng.fromSeed (c.seed + hash pv % 2 ^ 31 - 1).toNat) (by
      intro h
      have := congrArg List.length h
      simp only [List.length_replicate, List.length_nil] at this
      exact hne (List.length_eq_zero_iff.1 this)) (by
      intro x hx
      rw [(List.mem_replicate.1 hx).2]
      exact hs)
  rw [List.length_replicate] at h2
  refine ⟨probs, ?_, h2, h3, h4⟩
  rw [call_eq, tempSeed_eq, if_pos hl]
  simp only [h1]
  exact probDict_ok hd h2

end Random

/-- **C74** If the seed is one of 1, …, 2^31 + 1, a call with any parent values gives a probability distribution over the domain (given
distinct outcomes and a positive smoothness): it does not raise. -/
theorem C74_legal_seed {σ : Type} {rng : Rng σ} (hr : rng.Sound) (hash : PV → Int) {c : RandomCpd} (h1 : 1 ≤ c.seed) (h2 : c.seed ≤ 2 ^ 31 + 1)
    (hs : 0 < c.smoothness) (hd : c.domain.Nodup) (hne : c.domain ≠ []) (pv : PV) (s : σ) :
    ∃ d : Dict Outcome (Option Rat), (c.call rng hash pv s).1 = .ok d ∧ d.keys = c.domain ∧
      (∀ x ∈ c.domain, ∃ p, given d x = some p ∧ 0 ≤ p) ∧ givenMass d = 1 := by
  obtain ⟨probs, k1, k2, k3, k4⟩ := call_ok hr hs hd hne (seed_legal h1 h2 (hash pv)) s
  have hkeys : Dict.keys ((c.domain.zip probs).map (fun p => (p.1, some p.2))) = c.domain := by
    simp only [Dict.keys, List.map_map]
    rw [show (Prod.fst ∘ fun p : Outcome × Rat => (p.1, some p.2)) = Prod.fst from rfl]
    exact List.map_fst_zip (by omega)
  refine ⟨_, k1, hkeys, ?_, ?_⟩
  · intro x hx
    rw [← hkeys, Dict.mem_keys] at hx
    obtain ⟨p, hp⟩ := hx
    obtain ⟨q, hq, e⟩ := List.mem_map.1 (Dict.mem_of_get? hp)
    simp only [Prod.mk.injEq] at e
    refine ⟨q.2, ?_, k3 _ (List.of_mem_zip hq).2⟩
    unfold given
    rw [hp, ← e.2]
    rfl
  · unfold givenMass
    rw [List.map_map, show ((fun p : Outcome × Option Rat => p.2.getD 0) ∘ fun p : Outcome × Rat => (p.1, some p.2)) = Prod.snd from rfl,
      List.map_snd_zip (by omega)]
    exact k4

/-- **C74** The bounds are sharp: for the seeds 0 and 2^31 + 2 there is a hash value for which every call raises ValueError. -/
theorem C74_illegal_seed {σ : Type} (rng : Rng σ) {c : RandomCpd} (h : c.seed = 0 ∨ c.seed = 2 ^ 31 + 2) :
    ∃ hash : PV → Int, ∀ pv s, (c.call rng hash pv s).1 = .error .value := by
  rcases h with h | h
  · refine ⟨fun _ => 0, fun pv s => ?_⟩
    rw [call_eq, tempSeed_eq, h, if_neg (by decide)]
  · refine ⟨fun _ => 2 ^ 31 - 1, fun pv s => ?_⟩
    rw [call_eq, tempSeed_eq, h, if_neg (by decide)]

/-- **C74** A seed other than 0 is kept and nothing is drawn.  Without a seed, and for the seed 0, a number from 0 to 9999 is drawn
from numpy's generator. -/
theorem C74_init {σ : Type} (rng : Rng σ) (domain : Option (List Outcome)) (sm : Rat) (s : σ) :
    (∀ seed : Int, seed ≠ 0 → ∃ c, RandomCpd.init rng domain sm (some seed) s = (.ok c, s) ∧ c.seed = seed) ∧
    (∀ o : Option Int, o = none ∨ o = some 0 → ∃ c, RandomCpd.init rng domain sm o s = (.ok c, (rng.next s).2) ∧
      c.seed = ((rng.next s).1 % 10000 : Nat) ∧ 0 ≤ c.seed ∧ c.seed < 10000) := by
  constructor
  · intro seed hs
    cases seed with
    | ofNat n =>
      cases n with
      | zero => exact absurd rfl hs
      | succ k => exact ⟨_, rfl, rfl⟩
    | negSucc k => exact ⟨_, rfl, rfl⟩
  · have hlt : (rng.next s).1 % 10000 < 10000 := Nat.mod_lt _ (by decide)
    rintro o (rfl | rfl)
    · exact ⟨_, rfl, rfl, by dsimp only; omega, by dsimp only; omega⟩
    · exact ⟨_, rfl, rfl, by dsimp only; omega, by dsimp only; omega⟩

/-! ### adding random CPDs to a game -/

namespace Random

/-- the relationships `add_random_cpds` chooses -/
def Picked {σ : Type} (rng : Rng σ) (hash : PV → Int) (decisions : List Node) (p : Node × Rel) : Prop :=
  (p.1 ∈ decisions ∧ p.2 = .seq [0, 1]) ∨
  (p.1 ∉ decisions ∧ ∃ s : σ, p.2 = .func (RandomCpd.func rng hash ⟨((rng.next s).1 % 10000 : Nat), 1, [0, 1]⟩))

theorem randomRels_ok {σ : Type} {rng : Rng σ} {hash : PV → Int} {decisions : List Node} : ∀ (vs : List Node) (s : σ),
    ∃ l s', randomRels rng hash decisions vs s = (.ok l, s') ∧ l.map (·.1) = vs ∧ ∀ p ∈ l, Picked rng hash decisions p
  | [], s => ⟨[], s, rfl, rfl, by simp⟩
  | v :: vs, s => by
    unfold randomRels
    split
    · rename_i hv
      obtain ⟨l, s', h1, h2, h3⟩ := randomRels_ok vs s
      refine ⟨(v, .seq [0, 1]) :: l, s', ?_, by simp [h2], ?_⟩
      · unfold Prog.bind
        rw [h1]
        rfl
      · intro p hp
        rcases List.mem_cons.1 hp with rfl | hp
        · exact Or.inl ⟨hv, rfl⟩
        · exact h3 p hp
    · rename_i hv
      obtain ⟨l, s', h1, h2, h3⟩ := randomRels_ok vs (rng.next s).2
      refine ⟨(v, .func (RandomCpd.func rng hash ⟨((rng.next s).1 % 10000 : Nat), 1, [0, 1]⟩)) :: l, s', ?_, by simp [h2], ?_⟩
      · unfold Prog.bind RandomCpd.init
        simp only [truthy, Option.getD_none]
        rw [h1]
        rfl
      · intro p hp
        rcases List.mem_cons.1 hp with rfl | hp
        · exact Or.inr ⟨hv, s, rfl⟩
        · exact h3 p hp

/-- a CPD over 0 and 1 whose function returns the columns listed -/
theorem binary_cpd {kind : CpdKind} {v : Node} {f : Func} {force : Option (List Outcome)} {ps : List Node} {dom : Dict Node (List Outcome)}
    (hps : ∀ p ∈ ps, dom.get? p = some [0, 1]) (hforce : force = none ∨ force = some [0, 1])
    (hf : ∀ pv, (force = some [0, 1] ∧ f pv = .ok (.dist [])) ∨ ∃ p q : Rat, f pv = .ok (.dist [(0, some p), (1, some q)]) ∧ 0 ≤ p ∧ 0 ≤ q ∧ p + q = 1) :
    ∃ c, mkCpd kind v f force ps dom (cardOf dom) = .ok c ∧ c.domain = [0, 1] ∧ ∀ col ∈ c.table, (∀ y ∈ col, 0 ≤ y) ∧ col.sum = 1 := by
  have hcol : ∀ pv, ∃ col : List Rat, colFor f [0, 1] pv = .ok col ∧ (∀ y ∈ col, 0 ≤ y) ∧ col.sum = 1 ∧ (∀ y ∈ col, y ≤ 1) := by
    intro pv
    rcases hf pv with ⟨_, h⟩ | ⟨p, q, h, h1, h2, h3⟩
    · refine ⟨[1 / 2, 1 / 2], ?_, ?_, ?_, ?_⟩
      · simp only [colFor, stochasticFunction, h]
        rw [column_ok (by simp [Dict.keys]) (by simp)]
        simp [given, Dict.get?, givenMass, unspecified]
      · intro y hy
        simp only [List.mem_cons, List.not_mem_nil, or_false, or_self] at hy
        rw [hy]
        norm_num
      · norm_num
      · intro y hy
        simp only [List.mem_cons, List.not_mem_nil, or_false, or_self] at hy
        rw [hy]
        norm_num
    · refine ⟨[p, q], ?_, ?_, ?_, ?_⟩
      · simp only [colFor, stochasticFunction, h]
        rw [column_ok (by simp [Dict.keys]) (by simp)]
        simp [given, Dict.get?]
      · intro y hy
        simp only [List.mem_cons, List.not_mem_nil, or_false] at hy
        rcases hy with rfl | rfl <;> assumption
      · simpa using h3
      · intro y hy
        simp only [List.mem_cons, List.not_mem_nil, or_false] at hy
        rcases hy with rfl | rfl <;> linarith
  have hds : parentDoms ps dom = .ok (ps.map (fun _ => [0, 1])) := by
    unfold parentDoms
    apply mapPy_map
    intro p hp
    exact domOf_ok.2 (hps p hp)
  have hcards : mapPy (cardOf dom) ps = .ok (ps.map (fun _ => 2)) := by
    apply mapPy_map
    intro p hp
    simp [cardOf, hps p hp]
  have hpos : ∃ possible, possibleValues f ((product (ps.map (fun _ => [(0 : Outcome), 1]))).map (pvOf ps)) = .ok possible ∧
      chooseDomain force possible = .ok [0, 1] := by
    obtain ⟨ds, hds1, hds2⟩ := mapPy_ok (f := stochasticFunction f) (xs := (product (ps.map (fun _ => [(0 : Outcome), 1]))).map (pvOf ps)) (by
      intro pv _
      rcases hf pv with ⟨_, h⟩ | ⟨p, q, h, _⟩
      · exact ⟨[], by simp only [stochasticFunction, h]⟩
      · exact ⟨[(0, some p), (1, some q)], by simp only [stochasticFunction, h]⟩)
    refine ⟨(ds.flatMap Dict.keys).dedup.insertionSort (· ≤ ·), by unfold possibleValues; rw [hds1], ?_⟩
    have hsub : ∀ x ∈ ds.flatMap Dict.keys, x = 0 ∨ x = 1 := by
      intro x hx
      obtain ⟨d, hd, hx⟩ := List.mem_flatMap.1 hx
      obtain ⟨pv, _, hpv⟩ := mapPy_mem' hds1 hd
      rcases hf pv with ⟨_, h⟩ | ⟨p, q, h, _⟩ <;> simp only [stochasticFunction, h, Except.ok.injEq] at hpv <;> subst hpv
      · simp [Dict.keys] at hx
      · simpa [Dict.keys] using hx
    rcases hforce with rfl | rfl
    · simp only [chooseDomain, truthy, Except.ok.injEq]
      have hmem : ∀ x, x ∈ (ds.flatMap Dict.keys).dedup.insertionSort (· ≤ ·) ↔ x = 0 ∨ x = 1 := by
        intro x
        rw [List.mem_insertionSort, List.mem_dedup]
        refine ⟨hsub x, fun hx => ?_⟩
        have hne : ∃ pv, pv ∈ (product (ps.map (fun _ => [(0 : Outcome), 1]))).map (pvOf ps) := by
          refine ⟨pvOf ps (ps.map (fun _ => 0)), List.mem_map.2 ⟨_, ?_, rfl⟩⟩
          rw [mem_product, List.forall₂_map_left_iff, List.forall₂_map_right_iff, List.forall₂_same]
          simp
        obtain ⟨pv, hpv⟩ := hne
        obtain ⟨d, hd, hdv⟩ := mapPy_mem hds1 hpv
        rcases hf pv with ⟨h0, h⟩ | ⟨p, q, h, _⟩
        · simp at h0
        · simp only [stochasticFunction, h, Except.ok.injEq] at hdv
          subst hdv
          exact List.mem_flatMap.2 ⟨_, hd, by simpa [Dict.keys] using hx⟩
      have hs : ((ds.flatMap Dict.keys).dedup.insertionSort (· ≤ ·)).Pairwise (· < ·) := by
        have h1 : ((ds.flatMap Dict.keys).dedup.insertionSort (· ≤ ·)).Pairwise (· ≤ ·) := List.pairwise_insertionSort _ _
        have h2 : ((ds.flatMap Dict.keys).dedup.insertionSort (· ≤ ·)).Nodup :=
          (List.perm_insertionSort _ _).nodup_iff.2 (List.nodup_dedup _)
        exact (h1.and h2).imp (fun h => lt_of_le_of_ne h.1 h.2)
      exact (hs.eq_of_mem_iff (by simp) (fun x => by rw [hmem]; simp))
    · simp only [chooseDomain, truthy]
      rw [if_pos]
      rw [List.all_eq_true]
      intro x hx
      rw [List.mem_insertionSort, List.mem_dedup] at hx
      simpa using hsub x hx
  obtain ⟨possible, hp1, hp2⟩ := hpos
  obtain ⟨cols, hc1, hc2⟩ := mapPy_ok (f := colFor f [0, 1]) (xs := (product (ps.map (fun _ => [(0 : Outcome), 1]))).map (pvOf ps))
    (fun pv _ => by obtain ⟨col, h, _⟩ := hcol pv; exact ⟨col, h⟩)
  have hcols : ∀ col ∈ cols, (∀ y ∈ col, 0 ≤ y) ∧ col.sum = 1 ∧ (∀ y ∈ col, y ≤ 1) := by
    intro col hcl
    obtain ⟨pv, _, hpv⟩ := mapPy_mem' hc1 hcl
    obtain ⟨col', h1, h2⟩ := hcol pv
    rw [h1] at hpv
    cases hpv
    exact h2
  refine ⟨⟨v, [0, 1], ps, ps.map (fun _ => 2), cols, kind, f, force⟩, ?_, rfl, fun col hcl => ⟨(hcols col hcl).1, (hcols col hcl).2.1⟩⟩
  rw [mkCpd_ok_iff]
  refine ⟨_, possible, [0, 1], _, cols, hds, hp1, hp2, hcards, hc1, ?_, ?_, ?_, by simp, rfl⟩
  · rw [List.all_eq_true]
    intro col hcl
    simp only [colClose, (hcols col hcl).2.1, decide_eq_true_eq]
    norm_num
  · rw [List.all_eq_true]
    intro col hcl
    simp only [colRange, List.all_eq_true, decide_eq_true_eq]
    exact fun y hy => ⟨(hcols col hcl).1 y hy, (hcols col hcl).2.2 y hy⟩
  · rw [← hc2.length_eq, List.length_map, Verif.length_product, List.map_map]
    rfl

theorem random_func {σ : Type} {rng : Rng σ} (hr : rng.Sound) {hash : PV → Int} (hs : SeedsFine rng hash) (s : σ) (pv : PV) :
    ∃ p q : Rat, RandomCpd.func rng hash ⟨((rng.next s).1 % 10000 : Nat), 1, [0, 1]⟩ pv = .ok (.dist [(0, some p), (1, some q)]) ∧
      0 ≤ p ∧ 0 ≤ q ∧ p + q = 1 := by
  have hlt : (rng.next s).1 % 10000 < 10000 := Nat.mod_lt _ (by decide)
  have h1 := Int.emod_nonneg (hash pv) (b := 2 ^ 31) (by decide)
  have h2 := Int.emod_lt_of_pos (hash pv) (b := 2 ^ 31) (by decide)
  obtain ⟨probs, k1, k2, k3, k4⟩ := call_ok hr (hash := hash) (c := ⟨((rng.next s).1 % 10000 : Nat), 1, [0, 1]⟩) one_pos (by simp) (by simp) (pv := pv)
    (by
      dsimp only
      rcases hs with hs | hs
      · have := hs pv
        omega
      · have := hs s
        omega) (rng.fromSeed 0)
  match probs, k2, k3, k4, k1 with
  | [p, q], _, k3, k4, k1 =>
    refine ⟨p, q, ?_, k3 p (by simp), k3 q (by simp), by simpa using k4⟩
    unfold RandomCpd.func
    rw [k1]
    rfl

end Random

/-- **C80** `add_random_cpds` parameterises every game with consistent roles: it does not raise, the graph and the roles stay as they are,
every node has the domain {0, 1} and a CPD that fits it, exactly the decisions are left undecided, all distributions are
normalised; so if every agent has a decision and a utility, everything proved about usable networks applies. -/
theorem C80_add_random_cpds {σ : Type} {rng : Rng σ} (hr : rng.Sound) {hash : PV → Int} (hs : SeedsFine rng hash) {net : Net} (hf : net.Fresh)
    (hm : net.m.Consistent) (s : σ) :
    ∃ net' s', addRandomCpds rng hash net s = ((net', .ok ()), s') ∧ net'.m = net.m ∧ net'.base = net.base ∧ net'.Good ∧ net'.Normalised ∧
      (∀ v ∈ net.g.nodes, net'.dom v = [0, 1] ∧ (net'.undecided v = true ↔ v ∈ net.m.decisions)) ∧
      (net.base = Macid.new ∨ net.base = Macid.newCid → net.Staffed → net'.Usable) := by
  classical
  obtain ⟨l, s', h1, h2, h3⟩ := randomRels_ok (rng := rng) (hash := hash) (decisions := net.m.decisions) net.g.nodes s
  have hw : net.g.WF := hm.wf
  have hnd : (l.map (·.1)).Nodup := by rw [h2]; exact hw.nodesNodup
  let D : Dict Node (List Outcome) := net.g.nodes.map (fun v => (v, [0, 1]))
  have hD : ∀ v ∈ net.g.nodes, D.get? v = some [0, 1] := by
    intro v hv
    simp only [D]
    rw [get?_map_pair (h := fun _ => [0, 1]), if_pos hv]
  have hps : ∀ v, ∀ p ∈ net.g.parents v, D.get? p = some [0, 1] := fun v p hp => hD p (hw.edgeNodes p v (Graph.mem_parents.1 hp)).1
  have hdec : ∀ p ∈ l, ∃ c, computed net.g D p.1 p.2 = .ok c ∧ c.domain = [0, 1] ∧ (∀ col ∈ c.table, (∀ y ∈ col, 0 ≤ y) ∧ col.sum = 1) ∧
      c.Fits net.g D p.1 ∧ c.WellFormed ∧ (c.kind = .decision ↔ p.1 ∈ net.m.decisions) := by
    intro p hp
    rcases h3 p hp with ⟨k1, k2⟩ | ⟨k1, t, k2⟩
    · obtain ⟨c, c1, c2, c3⟩ := binary_cpd (kind := .decision) (v := p.1) (f := constFunc []) (force := some [0, 1]) (hps p.1) (Or.inr rfl)
        (fun pv => Or.inl ⟨rfl, rfl⟩)
      refine ⟨c, by rw [k2]; exact c1, c2, c3, mkCpd_fits c1, mkCpd_wf c1 (Graph.nodup_parents hw.edgesNodup _) (by rw [c2]; simp), ?_⟩
      simp [(mkCpd_fields c1).2.2.1, k1]
    · obtain ⟨c, c1, c2, c3⟩ := binary_cpd (kind := .stochastic) (v := p.1)
        (f := RandomCpd.func rng hash ⟨((rng.next t).1 % 10000 : Nat), 1, [0, 1]⟩) (force := none) (hps p.1) (Or.inl rfl)
        (fun pv => Or.inr (random_func hr hs t pv))
      refine ⟨c, by rw [k2]; exact c1, c2, c3, mkCpd_fits c1, mkCpd_wf c1 (Graph.nodup_parents hw.edgesNodup _) (by rw [c2]; simp), ?_⟩
      simp [(mkCpd_fields c1).2.2.1, k1]
  have hrel : ∀ v ∈ net.g.nodes, ∃ r, (v, r) ∈ l := by
    intro v hv
    rw [← h2] at hv
    obtain ⟨p, hp, rfl⟩ := List.mem_map.1 hv
    exact ⟨p.2, hp⟩
  let C : Node → Cpd := fun v => if h : ∃ c r, (v, r) ∈ l ∧ computed net.g D v r = .ok c then h.choose else ⟨v, [], [], [], [], .tabular, constFunc [], none⟩
  have hC : ∀ v r, (v, r) ∈ l → computed net.g D v r = .ok (C v) := by
    intro v r hv
    have hex : ∃ c r, (v, r) ∈ l ∧ computed net.g D v r = .ok c := by
      obtain ⟨c, hc, _⟩ := hdec (v, r) hv
      exact ⟨c, r, hv, hc⟩
    have : C v = hex.choose := dif_pos hex
    obtain ⟨r', e1, e2⟩ := hex.choose_spec
    rw [this]
    have hrr : r' = r := by
      have a1 := Dict.get?_of_mem hnd e1
      have a2 := Dict.get?_of_mem hnd hv
      rw [a1] at a2
      simpa using a2
    rw [← hrr]
    exact e2
  have hCp : ∀ v ∈ net.g.nodes, (C v).domain = [0, 1] ∧ (∀ col ∈ (C v).table, (∀ y ∈ col, 0 ≤ y) ∧ col.sum = 1) ∧
      (C v).Fits net.g D v ∧ (C v).WellFormed ∧ ((C v).kind = .decision ↔ v ∈ net.m.decisions) := by
    intro v hv
    obtain ⟨r, hr⟩ := hrel v hv
    obtain ⟨c, c1, c2⟩ := hdec (v, r) hr
    have := hC v r hr
    rw [c1] at this
    cases this
    exact c2
  obtain ⟨net', a1, a2, a3, a4, a5, a6⟩ := assemble hf hw (C := C) (D := D) (fun v hv => by rw [hD v hv, (hCp v hv).1]) hnd
    (fun v => by rw [h2]) (fun v r hv => hC v r (Dict.mem_of_get? hv)) (fun v hv => (hCp v hv).2.2.1) (fun v hv => (hCp v hv).2.2.2.1)
  have hgood : net'.Good := by
    refine a6 (fun v c1 hv hk => ?_)
    rcases h3 _ (Dict.mem_of_get? hv) with ⟨_, k2⟩ | ⟨_, t, k2⟩ <;> simp at k2
  have hg : net'.g = net.g := congrArg Macid.g a2
  have hn : net'.Normalised := by
    refine normalised_of_tables hgood (fun v c hc => ?_)
    have hv : v ∈ net.g.nodes := by rw [← hg]; exact cpds_node hgood hc
    rw [(a4 v hv).1] at hc
    cases hc
    exact (hCp v hv).2.1
  refine ⟨net', s', ?_, a2, a3, hgood, hn, fun v hv => ⟨?_, ?_⟩, fun hb hst => ?_⟩
  · unfold addRandomCpds
    rw [h1]
    simp only [a1]
  · have := (a4 v hv).2
    rw [hD v hv] at this
    exact dom_eq this
  · unfold undecided
    rw [(a4 v hv).1]
    simpa using (hCp v hv).2.2.2.2
  · refine ⟨hgood, hn, by rw [a2]; exact hm, by rw [a3]; exact hb, ?_⟩
    refine ⟨fun a => by rw [a2]; exact hst.both a, fun a ha => ?_⟩
    rw [a2] at ha ⊢
    rw [a3]
    exact hst.owns a ha

/-! ### examples -/

namespace Random

/-- a generator whose state is a number; sampling puts all mass on one outcome, the one the state selects -/
def exRng : Rng Nat where
  fromSeed := fun n => n
  next := fun s => (s + 1, 3 * s + 1)
  dirichlet := fun alpha s =>
    if alpha = [] ∨ ∃ x ∈ alpha, x ≤ 0 then (.error .value, s + 1)
    else (.ok ((List.replicate alpha.length 0).set (s % alpha.length) 1), s + 7)

theorem exRng_sound : exRng.Sound := by
  intro alpha s h1 h2
  have hlt : s % alpha.length < alpha.length := Nat.mod_lt _ (List.length_pos_iff.2 h1)
  refine ⟨(List.replicate alpha.length 0).set (s % alpha.length) 1, ?_, ?_, ?_, ?_⟩
  · unfold exRng
    simp only
    rw [if_neg]
    rintro (h | ⟨x, hx, hx'⟩)
    · exact h1 h
    · exact absurd (h2 x hx) (not_lt.2 hx')
  · simp
  · intro p hp
    rcases List.mem_or_eq_of_mem_set hp with h | rfl
    · rw [(List.mem_replicate.1 h).2]
    · norm_num
  · rw [List.sum_set]
    simp [hlt]

/-- no hash value is a multiple of 2^31 -/
def exHash : PV → Int := fun pv => 5 + 2 * (if pv "X_0" = some 1 then 1 else 0) + 4 * (if pv "X_1" = some 1 then 1 else 0)

theorem exHash_fine (rng : Rng Nat) : SeedsFine rng exHash := by
  left
  intro pv
  unfold exHash
  split <;> split <;> decide

/-- the random game of C72 without parameters -/
def exBare : Net := ⟨exRandom, [], [], [], Macid.new⟩

end Random

/-- the hypotheses of C74 are met, with distributions that depend on the parents -/
theorem C74_example :
    (RandomCpd.call exRng exHash ⟨17, 1, [0, 1, 2]⟩ (fun v => if v = "X_0" then some 1 else none) 3).1 = .ok [(0, some 0), (1, some 0), (2, some 1)] ∧
    (RandomCpd.call exRng exHash ⟨17, 1, [0, 1, 2]⟩ (fun _ => none) 3).1 = .ok [(0, some 1), (1, some 0), (2, some 0)] ∧
    (RandomCpd.call exRng exHash ⟨17, -1, [0, 1, 2]⟩ (fun _ => none) 3) = (.error .value, 3) := by
  decide +kernel

/-- **C80** for the random game of C72: it can be used -/
theorem C80_example : ∃ net' s', addRandomCpds exRng exHash exBare 3 = ((net', .ok ()), s') ∧ net'.Usable ∧ net'.m = exRandom := by
  obtain ⟨net', s', h1, h2, _, _, _, _, h3⟩ := C80_add_random_cpds exRng_sound (exHash_fine exRng) (net := exBare) ⟨rfl, rfl, rfl⟩
    C72_example.1.consistent 3
  exact ⟨net', s', h1, h3 (Or.inl rfl) (staffed_of (by decide +kernel)), h2⟩

set_option maxRecDepth 100000 in
/-- **C80** (why the hashes matter) If 0 is drawn and a hash is a multiple of 2^31, `add_random_cpds` raises ValueError. -/
theorem C80_bad_seed : (addRandomCpds ⟨fun n => n, fun s => (s, s), exRng.dirichlet⟩ (fun _ => 0) exBare 0).1.2 = .error .value := by
  decide +kernel

end Verif
