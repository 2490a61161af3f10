import Verif.Lemmas.Tolerance
import Verif.Lemmas.Build
import Verif.Lemmas.Accept
import Verif.Props.Cpd
import Verif.Props.Query

/-!
# C108: columns that sum to 1 only approximately
-/

namespace Verif
open Net Graph
namespace Net

/-- what a query that returned has done, without any assumption on the sums of columns -/
theorem queryOn_infer {net : Net} (hG : Good net) {ord : List Node → List Node} {q : List Node} {ctx : List (Node × Outcome)}
    {f : Factor} (h : (net.queryOn ord q ctx).2 = .ok f) :
    (∀ v ∈ q, v ∈ net.g.nodes) ∧ infer ord (net.prune (keepOf net q)) q (ctxOf net q ctx) = .ok f := by
  unfold queryOn at h
  by_cases hall : q.all net.g.hasNode = false
  · rw [if_pos hall] at h
    cases h
  · rw [if_neg hall] at h
    refine ⟨fun v hv => ?_, ?_⟩
    · simp only [Bool.not_eq_false, List.all_eq_true] at hall
      simpa [Graph.hasNode] using hall v hv
    · have h' : (match isConnected (net.prune (keepOf net q)).g with
        | .error e => (net.prune (keepOf net q), .error e)
        | .ok false => (net.prune (keepOf net q), .error .value)
        | .ok true => (net.prune (keepOf net q), infer ord (net.prune (keepOf net q)) q (ctxOf net q ctx)) : Net × Py Factor).2 =
          .ok f := h
      generalize isConnected (net.prune (keepOf net q)).g = r at h'
      rcases r with e | (_ | _)
      · cases h'
      · cases h'
      · exact h'

theorem joint_nonneg {net : Net} (hG : Good net) (hn : net.NoNegative) {a : Assign} (ha : net.InDom a) :
    0 ≤ (net.g.nodes.map (fun v => net.kernel v a)).prod := by
  have : ∀ (l : List Node), (∀ v ∈ l, 0 ≤ net.kernel v a) → 0 ≤ (l.map (fun v => net.kernel v a)).prod := by
    intro l
    induction l with
    | nil => intro _; simp
    | cons v l ih =>
      intro h
      rw [List.map_cons, List.prod_cons]
      exact mul_nonneg (h v (by simp)) (ih (fun w hw => h w (by simp [hw])))
  apply this
  intro v hv
  obtain ⟨c, hc, col, hm, _, h⟩ := colSum_col hG hv ha
  exact h (hn v c hc col hm)

theorem P_mono {net : Net} (hG : Good net) (hn : net.NoNegative) {E F : Assign → Bool} (h : ∀ a, E a = true → F a = true) :
    net.P E ≤ net.P F := by
  apply sumOver_le
  intro b hb _
  have := joint_nonneg hG hn hb
  by_cases hE : E b = true
  · simp [hE, h b hE]
  · simp only [hE, if_false, Bool.false_eq_true]
    split
    · exact this
    · exact le_refl _

theorem PRescaled_nonneg {net : Net} (hG : Good net) (hn : net.NoNegative) (E : Assign → Bool) : 0 ≤ net.PRescaled E := by
  rw [PRescaled_eq_W]
  exact BN.W_nonneg (scaled_prob hG hn) (fun a _ => by split <;> norm_num)

end Net

/-- **C108** CPDs that the library computed from functions, dictionaries and decision domains have no negative entries. -/
theorem C108_no_negative {net : Net} (hG : net.Good) (ht : ∀ v c, net.rels.get? v ≠ some (.tab c)) : net.NoNegative := by
  intro v c hc col hcol y hy
  obtain ⟨_, r, hr, he⟩ := hG.reflects v c hc
  have key : ∀ {kind f force}, mkCpd kind v f force (net.g.parents v) net.domain (cardOf net.domain) = .ok c → 0 ≤ y := by
    intro kind f force h
    obtain ⟨_, _, _, _, _, _, h7⟩ := C23_constructed_cpd_valid h
    exact ((h7 col hcol).2.1 y hy).1
  cases r with
  | tab c' => exact absurd hr (ht v c')
  | func f => exact key (kind := .stochastic) (f := f) (force := none) he
  | dist d => exact key (kind := .constant) (f := constFunc d) (force := none) he
  | seq l => exact key (kind := .decision) (f := constFunc []) (force := some l) he

/-- **C108** Columns may miss the sum 1 by up to 0.01. A query then returns numbers between 0 and 1, and each is within the
factor `(101/99)^n` of the conditional probability in the network with rescaled columns, where `n` is the number of nodes
with such a column. A context is found impossible exactly if it is impossible in the rescaled network. -/
theorem C108_rounded_columns {net : Net} (hG : net.Good) (hn : net.NoNegative) {pick : Pick} {ord : List Node → List Node}
    (hord : ∀ l, (ord l).Perm l) {q : List Node} {ctx : List (Node × Outcome)}
    (hcon : ∀ p ∈ ctx, ∃ x ∈ q, net.g.Connected x p.1) {f : Factor} (h : (net.query pick ord q ctx []).2 = .ok f) :
    f.vars.Perm q ∧ f.states = f.vars.map net.dom ∧ ∃ r : List Outcome → Option Rat, f.values = (product f.states).map r ∧
      ∀ xs, (net.PRescaled (Ctx ctx) = 0 → r xs = none) ∧
        (net.PRescaled (Ctx ctx) ≠ 0 → ∃ y, r xs = some y ∧ 0 ≤ y ∧ y ≤ 1 ∧
          (99 / 101 : Rat) ^ net.inexact.length *
            (net.PRescaled (fun a => Has f.vars xs a && Ctx ctx a) / net.PRescaled (Ctx ctx)) ≤ y ∧
          y ≤ (101 / 99 : Rat) ^ net.inexact.length *
            (net.PRescaled (fun a => Has f.vars xs a && Ctx ctx a) / net.PRescaled (Ctx ctx))) := by
  obtain ⟨hc, _, hcore⟩ := query_ok hG h
  obtain ⟨hq, hinf⟩ := queryOn_infer hG (show (net.queryOn ord q ctx).2 = .ok f from hcore)
  have hK : Closed net.g (keepOf net q) := closed_keep hG.wf q
  have hqK : ∀ v ∈ q, v ∈ keepOf net q := fun v hv => (mem_keepOf hG.wf).2 ⟨v, hv, .refl⟩
  have hctx : ctxOf net q ctx = ctx := by
    unfold ctxOf
    rw [List.filter_eq_self]
    intro p hp
    simpa using (mem_keepOf hG.wf).2 (hcon p hp)
  rw [hctx] at hinf
  have hG' := prune_good hG hK
  have hn' := noNegative_prune hn (keepOf net q)
  obtain ⟨f', hf1, hf2, hf3, hf4⟩ := infer_spec hG' hord (q := q) (ctx := ctx) (infer_ok hinf)
  rw [hinf] at hf1
  cases hf1
  have hdc : DependsOn (Ctx ctx) (fun v => v ∈ net.g.nodes ∧ v ∈ keepOf net q) :=
    (ctx_depends _).mono (fun v hv => by
      obtain ⟨p, hp, rfl⟩ := List.mem_map.1 hv
      exact ⟨(hc p hp).1, (mem_keepOf hG.wf).2 (hcon p hp)⟩)
  have hdh : ∀ xs, DependsOn (Has f.vars xs) (fun v => v ∈ net.g.nodes ∧ v ∈ keepOf net q) := fun xs =>
    (has_depends _ _).mono (fun v hv => ⟨hq v (hf2.mem_iff.1 hv), hqK v (hf2.mem_iff.1 hv)⟩)
  refine ⟨hf2, hf3, _, hf4, fun xs => ?_⟩
  generalize hN : net.prune (keepOf net q) = N at *
  have e1 : N.PRescaled (Ctx ctx) = net.PRescaled (Ctx ctx) := by rw [← hN]; exact PRescaled_prune hG hn hK hdc
  have e2 : N.PRescaled (fun a => Has f.vars xs a && Ctx ctx a) = net.PRescaled (fun a => Has f.vars xs a && Ctx ctx a) := by
    rw [← hN]
    exact PRescaled_prune hG hn hK (by
      intro a b hab
      show (Has f.vars xs a && Ctx ctx a) = _
      rw [hdh xs a b hab, hdc a b hab])
  have hlen : N.inexact.length ≤ net.inexact.length := by rw [← hN]; exact inexact_prune net _
  rw [← e1, ← e2]
  obtain ⟨a1, a2⟩ := P_near hG' hn' (Ctx ctx)
  obtain ⟨b1, b2⟩ := P_near hG' hn' (fun a => Has f.vars xs a && Ctx ctx a)
  have c1 := PRescaled_nonneg hG' hn' (Ctx ctx)
  have c2 := PRescaled_nonneg hG' hn' (fun a => Has f.vars xs a && Ctx ctx a)
  have hm : N.P (fun a => Has f.vars xs a && Ctx ctx a) ≤ N.P (Ctx ctx) := P_mono hG' hn' (fun a h => by
    simp only [Bool.and_eq_true] at h
    exact h.2)
  generalize N.PRescaled (Ctx ctx) = p at *
  generalize N.PRescaled (fun a => Has f.vars xs a && Ctx ctx a) = s at *
  generalize N.P (Ctx ctx) = P at *
  generalize N.P (fun a => Has f.vars xs a && Ctx ctx a) = S at *
  generalize N.inexact.length = k at *
  generalize net.inexact.length = n at *
  have l0 : (0 : Rat) < (99 / 100) ^ k := by positivity
  have u0 : (0 : Rat) < (101 / 100) ^ k := by positivity
  refine ⟨fun h0 => ?_, fun h0 => ?_⟩
  · rw [if_pos]
    rw [h0] at a1 a2
    linarith
  · have hp : 0 < p := lt_of_le_of_ne c1 (Ne.symm h0)
    have hP : 0 < P := lt_of_lt_of_le (mul_pos l0 hp) a1
    have hS : 0 ≤ S := le_trans (mul_nonneg l0.le c2) b1
    refine ⟨S / P, if_neg hP.ne', div_nonneg hS hP.le, (div_le_one hP).2 hm, ?_, ?_⟩
    · have h1 : (99 / 101 : Rat) ^ n ≤ (99 / 101) ^ k := pow_le_pow_of_le_one (by norm_num) (by norm_num) hlen
      have h2 : (99 / 101 : Rat) ^ k = (99 / 100) ^ k / (101 / 100) ^ k := by rw [← div_pow]; norm_num
      calc (99 / 101 : Rat) ^ n * (s / p) ≤ (99 / 101) ^ k * (s / p) := mul_le_mul_of_nonneg_right h1 (div_nonneg c2 c1)
        _ = ((99 / 100) ^ k * s) / ((101 / 100) ^ k * p) := by rw [h2, div_mul_div_comm]
        _ ≤ S / P := div_le_div₀ hS b1 hP a2
    · have h1 : (101 / 99 : Rat) ^ k ≤ (101 / 99) ^ n := pow_le_pow_right₀ (by norm_num) hlen
      have h2 : (101 / 99 : Rat) ^ k = (101 / 100) ^ k / (99 / 100) ^ k := by rw [← div_pow]; norm_num
      calc S / P ≤ ((101 / 100) ^ k * s) / ((99 / 100) ^ k * p) := div_le_div₀ (mul_nonneg u0.le c2) b2 (mul_pos l0 hp) a1
        _ = (101 / 99) ^ k * (s / p) := by rw [h2, div_mul_div_comm]
        _ ≤ (101 / 99) ^ n * (s / p) := mul_le_mul_of_nonneg_right h1 (div_nonneg c2 c1)

/-- the network A → B -/
def ExTol.m : Macid := ⟨⟨["A", "B"], [("A", "B")]⟩, [], [], [], []⟩

/-- A is a fair coin; the columns of B sum to 0.995 and 1.005 -/
def ExTol.rels : List (Node × Rel) :=
  [("A", .dist [(0, some (1 / 2)), (1, some (1 / 2))]),
   ("B", .func (fun pv => .ok (.dist (if pv "A" = some 0 then [(0, some (495 / 1000)), (1, some (1 / 2))]
      else [(0, some (505 / 1000)), (1, some (1 / 2))]))))]

def ExTol.net : Net := build ExTol.m Macid.new ExTol.rels

theorem ExTol.eq : (⟨ExTol.m, [], [], [], Macid.new⟩ : Net).addCpds ExTol.rels = (ExTol.net, .ok ()) := by
  have : ((⟨ExTol.m, [], [], [], Macid.new⟩ : Net).addCpds ExTol.rels).2 = .ok () := by decide +kernel
  unfold ExTol.net build
  rw [← this]

theorem ExTol.noTab (v : Node) (c : Cpd) : ExTol.net.rels.get? v ≠ some (.tab c) := by
  rw [addCpds_rels (by decide +kernel) ExTol.eq v]
  intro h
  cases hg : Dict.get? ExTol.rels v with
  | none => rw [hg] at h; simp [Dict.get?] at h
  | some r =>
    rw [hg] at h
    simp only [Option.some.injEq] at h
    subst h
    have := Dict.mem_of_get? hg
    simp [ExTol.rels] at this

theorem ExTol.good : ExTol.net.Good := by
  refine good_of_runs (net := ⟨ExTol.m, [], [], [], Macid.new⟩) (wf_of_ofEdges (es := [("A", "B")]) (by decide +kernel))
    ⟨rfl, rfl, rfl⟩ ?_ (addCpds_runs ExTol.eq) (by decide +kernel) (fun v c h => absurd h (ExTol.noTab v c))
  intro op ho
  obtain ⟨p, hp, rfl⟩ := List.mem_map.1 ho
  simp only [ExTol.rels, List.mem_cons, List.not_mem_nil, or_false] at hp
  rcases hp with rfl | rfl
  · trivial
  · intro pv; simp

/-- FALSE that the rounding of a CPD stays with the variable it belongs to: A is a fair coin by its CPD, but its
distribution comes out as 0.4975 and 0.5025 because the columns of its child B sum to 0.995 and 1.005. -/
theorem C108_rounding_spreads : ExTol.net.Good ∧ ExTol.net.NoNegative ∧ ExTol.net.inexact = ["B"] ∧
    (ExTol.net.cpds.get? "A").map (·.table) = some [[1 / 2, 1 / 2]] ∧
    ((ExTol.net.query (fun _ _ => 0) id ["A"] [] []).2.toOption.map (·.values)) = some [some (199 / 400), some (201 / 400)] ∧
    ExTol.net.PRescaled (fun a => Has ["A"] [0] a && Ctx [] a) = 1 / 2 :=
  ⟨ExTol.good, C108_no_negative ExTol.good ExTol.noTab, by decide +kernel, by decide +kernel, by decide +kernel,
    by decide +kernel⟩

/-- the hypotheses of `C108_rounded_columns` are met by a query with a context -/
example : ExTol.net.Good ∧ ExTol.net.NoNegative ∧ (∀ p ∈ [("B", (0 : Outcome))], ∃ x ∈ ["A"], ExTol.net.g.Connected x p.1) ∧
    ((ExTol.net.query (fun _ _ => 0) id ["A"] [("B", 0)] []).2.toOption.map (·.values)) = some [some (99 / 200), some (101 / 200)] :=
  ⟨ExTol.good, C108_no_negative ExTol.good ExTol.noTab,
    fun p hp => ⟨"A", by simp, by
      simp only [List.mem_singleton] at hp
      subst hp
      exact .single (Or.inl (by decide +kernel))⟩, by decide +kernel⟩

/-- `TabularCPD("A", 2, [[-1], [2]], state_names={"A": [0, 1]})` -/
def ExTol.negative : Cpd := ⟨"A", [0, 1], [], [], [[-1, 2]], .tabular, fun _ => .error .key, none⟩

/-- FALSE that a query returns probabilities for every accepted network: a TabularCPD object with the column −1, 2 is
accepted, the network passes its checks, and the query returns −1 and 2 (here up to the rounding of B). -/
theorem C108_negative_table : (ExTol.net.set "A" (.tab ExTol.negative)).2 = .ok () ∧
    (ExTol.net.set "A" (.tab ExTol.negative)).1.Good ∧
    ((((ExTol.net.set "A" (.tab ExTol.negative)).1.query (fun _ _ => 0) id ["A"] [] []).2.toOption.map (·.values)) =
      some [some (-199 / 203), some (402 / 203)]) := by
  have hA : Accept ExTol.net "A" ExTol.negative := by
    refine ⟨by decide +kernel, ⟨rfl, fun p => ?_, by decide +kernel, by decide +kernel⟩,
      ⟨by decide +kernel, by decide +kernel, by decide +kernel, by decide +kernel, by decide +kernel⟩, fun h => absurd rfl h⟩
    rw [← Graph.mem_parents]
    have e : ExTol.net.g.parents "A" = [] := by decide +kernel
    rw [e]
    rfl
  obtain ⟨net', h1, h2, _⟩ := hA.set ExTol.good (by decide +kernel)
  refine ⟨by rw [h1], by rw [h1]; exact h2, by decide +kernel⟩

end Verif
