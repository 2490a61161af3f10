import Verif.Lemmas.Backward

/-!
# Decisions that rely on each other share what separates them from the rest
-/

namespace Verif

open Graph Relation Macid

theorem Graph.Ball.bind {g : Graph} {Z : List Node} {I J : Node → Dir → Prop} (h : ∀ v d, I v d → Ball g Z J v d)
    {v : Node} {d : Dir} (hb : Ball g Z I v d) : Ball g Z J v d := by
  induction hb with
  | init h' => exact h _ _ h'
  | upPar _ h1 h2 ih => exact .upPar ih h1 h2
  | upCh _ h1 h2 ih => exact .upCh ih h1 h2
  | downCh _ h1 h2 ih => exact .downCh ih h1 h2
  | downPar _ h1 h2 ih => exact .downPar ih h1 h2

namespace Net

variable {m : Macid} (hc : m.Consistent) (hm : MecFree m.g) {mg : Graph} (hw : mg.WF)
    (h3 : ∀ a b, mg.Edge a b ↔ m.g.Edge a b ∨ (b ∈ m.g.nodes ∧ a = mec b))
    (h4 : ∀ x, x ∈ mg.nodes ↔ x ∈ m.g.nodes ∨ ∃ n ∈ m.g.nodes, x = mec n)
include hc hm hw h3 h4

/-- converse of `mech_sep` -/
theorem mech_conn {d v : Node} (hd : d ∈ m.g.nodes) (hv : v ∈ m.g.nodes) (hr : m.RReach d v) :
    ∃ a u, m.role d = .decision a ∧ m.role u = .utility a ∧ m.g.Desc d u ∧ Reached mg (d :: m.g.parents d) [mec v] u := by
  obtain ⟨a, u, h1, h2, hdu, h5⟩ := (rreach_iff hc.wf hv).1 hr
  have hZ : ∀ z ∈ d :: m.g.parents d, z ∈ m.g.nodes := by
    intro z hz
    rcases mem_family.1 hz with rfl | h'
    · exact hd
    · exact (hc.wf.edgeNodes _ _ h').1
  have hs : mec v ∈ mg.nodes := (h4 _).2 (Or.inr ⟨v, hv, rfl⟩)
  have hz : d :: m.g.parents d ⊆ mg.nodes := fun x hx => (h4 _).2 (Or.inl (hZ x hx))
  have hun : u ∈ m.g.nodes := descEq_mem hc.wf hdu.to_reflTransGen hd
  rw [← (sourceExt_mech hm h3).dconn_iff hc.wf ⟨hv, rfl⟩ hun hZ] at h5
  refine ⟨a, u, h1, h2, hdu, ?_⟩
  obtain ⟨b, e1, e2⟩ := isDConnected_reached hw (fun _ _ => 0) (t := u) hs hz
  obtain ⟨b', e3, e4⟩ := isDConnected_spec hw (fun _ _ => 0) (t := u) hs hz
  rw [e1] at e3
  cases e3
  exact e2.1 (e4.2 h5)

omit hw h4 in
/-- a ball that starts in the mechanism of a node comes through the node -/
theorem ball_from {Z : List Node} {d v : Node} {dir : Dir} (hd : d ∈ m.g.nodes)
    (hb : Ball mg Z (fun w d' => w ∈ [mec d] ∧ d' = .up) v dir) :
    v = mec d ∨ Ball mg Z (fun w d' => w = d ∧ d' = .down) v dir := by
  have hwf := hc.wf
  have hsrc : ∀ p, ¬ mg.Edge p (mec d) := by
    intro p hp
    rcases (h3 _ _).1 hp with h | ⟨h, _⟩
    · exact hm.1 _ (hwf.edgeNodes _ _ h).2 d hd rfl
    · exact hm.1 _ h d hd rfl
  have hone : ∀ c, mg.Edge (mec d) c → c = d := by
    intro c hc
    rcases (h3 _ _).1 hc with h | ⟨h, e⟩
    · exact absurd rfl (hm.1 _ (hwf.edgeNodes _ _ h).1 d hd)
    · exact (mec_inj e).symm
  induction hb with
  | init h => exact Or.inl (by simpa using h.1)
  | upPar _ h1 h2 ih =>
    rcases ih with rfl | ih
    · exact absurd h2 (hsrc _)
    · exact Or.inr (.upPar ih h1 h2)
  | upCh _ h1 h2 ih =>
    rcases ih with rfl | ih
    · rw [hone _ h2]; exact Or.inr (.init ⟨rfl, rfl⟩)
    · exact Or.inr (.upCh ih h1 h2)
  | downCh _ h1 h2 ih =>
    rcases ih with rfl | ih
    · rw [hone _ h2]; exact Or.inr (.init ⟨rfl, rfl⟩)
    · exact Or.inr (.downCh ih h1 h2)
  | downPar _ h1 h2 ih =>
    rcases ih with rfl | ih
    · exact absurd h2 (hsrc _)
    · exact Or.inr (.downPar ih h1 h2)

/-- **Shared separation.**  `K` are decisions of one agent any two of which are linked by reliance within `K`, and `O` is
what all of them observe.  A node none of them relies on is separated, given `O`, from what they can influence. -/
theorem team_sep {agent : Agent} {K O : List Node} (hK : ∀ d ∈ K, m.role d = .decision agent)
    (hO : ∀ o, o ∈ O ↔ ∀ d ∈ K, m.g.Edge o d)
    (hconn : ∀ d ∈ K, ∀ e ∈ K, ReflTransGen (fun x y => y ∈ K ∧ m.RReach x y) d e)
    {x : Node} (hx : x ∈ m.g.nodes) (hxK : x ∉ K) (hrel : ∀ d ∈ K, ¬ m.RReach d x)
    {d u : Node} (hd : d ∈ K) (hu : m.role u = .utility agent) (hdu : m.g.Desc d u) : ¬ Reached mg O [mec x] u := by
  have hKn : ∀ d ∈ K, d ∈ m.g.nodes := fun d hd => hc.nodes d (Or.inl (Dict.mem_keys.2 ⟨agent, role_decision.1 (hK d hd)⟩))
  have hmecK : ∀ v ∈ m.g.nodes, mec v ∉ m.g.nodes := fun v hv h => hm.1 _ h v hv rfl
  have hedge : ∀ {a b}, m.g.Edge a b → mg.Edge a b := fun h => (h3 _ _).2 (Or.inl h)
  have hcyc : ∀ e ∈ K, ∀ o ∈ O, ¬ mg.DescEq e o := by
    intro e he o ho h
    exact hw.acyclic e (TransGen.tail'_iff.2 ⟨o, h, hedge ((hO o).1 ho e he)⟩)
  have hsrc : ∀ n ∈ m.g.nodes, ∀ p, ¬ mg.Edge p (mec n) := by
    intro n hn p hp
    rcases (h3 _ _).1 hp with h | ⟨h, _⟩
    · exact hmecK n hn (hc.wf.edgeNodes _ _ h).2
    · exact hmecK n hn h
  have hOF : ∀ e ∈ K, ∀ o ∈ O, o ∈ e :: m.g.parents e := fun e he o ho =>
    mem_family.2 (Or.inr ((hO o).1 ho e he))
  -- no trail reaches an unshared observation in a way that passes on
  have hpass : ∀ {v dir}, v ∉ K → (∀ e ∈ K, Ball mg (e :: m.g.parents e) (fun w d' => w ∈ [mec x] ∧ d' = .up) v dir) → v ∉ O →
      ∀ e ∈ K, v ∉ e :: m.g.parents e := by
    intro v dir hvK hb hvO e he hve
    have hve' : m.g.Edge v e := (mem_family.1 hve).resolve_left (fun h => hvK (h ▸ he))
    -- some decision does not observe `v`
    have : ∃ e0 ∈ K, ¬ m.g.Edge v e0 := by
      by_contra hcon
      push Not at hcon
      exact hvO ((hO v).2 hcon)
    obtain ⟨e0, he0, hn0⟩ := this
    have hpair : ∃ a ∈ K, ∃ b ∈ K, ¬ m.g.Edge v a ∧ m.g.Edge v b ∧ m.RReach a b := by
      have hp := hconn e0 he0 e he
      clear hve
      induction hp using ReflTransGen.head_induction_on with
      | refl => exact absurd hve' hn0
      | @head a c hac hce ih =>
        by_cases hvc : m.g.Edge v c
        · exact ⟨a, he0, c, hac.1, hn0, hvc, hac.2⟩
        · exact ih hac.1 hvc
    obtain ⟨a, ha, b, hb', hna, hvb, hab⟩ := hpair
    obtain ⟨ag, u', r1, r2, r3, r4⟩ := mech_conn hc hm hw h3 h4 (hKn a ha) (hKn b hb') hab
    obtain ⟨hu'Z, dir', hball⟩ := r4
    have hagent : ag = agent := by
      have := hK a ha
      rw [r1] at this
      cases this; rfl
    subst hagent
    have hvF : v ∉ a :: m.g.parents a := fun h => (mem_family.1 h).elim (fun e => hvK (e ▸ ha)) hna
    have hbdown : Ball mg (a :: m.g.parents a) (fun w d' => w ∈ [mec x] ∧ d' = .up) b .down := by
      cases dir with
      | up => exact .upCh (hb a ha) hvF (hedge hvb)
      | down => exact .downCh (hb a ha) hvF (hedge hvb)
    have hu'n : u' ∈ m.g.nodes := descEq_mem hc.wf r3.to_reflTransGen (hKn a ha)
    rcases ball_from hc hm h3 (hKn b hb') hball with e | hball'
    · rw [e] at hu'n
      exact absurd hu'n (hmecK b (hKn b hb'))
    · refine mech_sep hc hm hw h3 h4 r1 r2 r3 hx (hrel a ha) ⟨hu'Z, dir', hball'.bind ?_⟩
      rintro w d' ⟨rfl, rfl⟩
      exact hbdown
  rintro ⟨huO, dir, hball⟩
  -- the invariant
  have key : ∀ {v dir}, Ball mg O (fun w d' => w ∈ [mec x] ∧ d' = .up) v dir →
      v ∉ K ∧ (∀ e ∈ K, v ≠ mec e) ∧ (dir = .up → v = mec x ∨ ∃ o ∈ O, mg.DescEq v o) ∧
      ∀ e ∈ K, Ball mg (e :: m.g.parents e) (fun w d' => w ∈ [mec x] ∧ d' = .up) v dir := by
    intro v dir hb
    induction hb with
    | @init v dir h =>
      have e : v = mec x := by simpa using h.1
      subst e
      exact ⟨fun h' => hmecK x hx (hKn _ h'), fun e he h' => hxK (by rw [mec_inj h']; exact he), fun _ => Or.inl rfl, fun e _ => .init h⟩
    | @upPar v p _ hvO hpv ih =>
      obtain ⟨i1, i2, i3, i4⟩ := ih
      have hdesc : ∃ o ∈ O, mg.DescEq p o := by
        rcases i3 rfl with rfl | ⟨o, ho, h⟩
        · exact absurd hpv (hsrc _ hx _)
        · exact ⟨o, ho, ReflTransGen.head hpv h⟩
      refine ⟨fun h => ?_, fun e he h => ?_, fun _ => Or.inr hdesc, fun e he => .upPar (i4 e he) (hpass i1 i4 hvO e he) hpv⟩
      · obtain ⟨o, ho, h'⟩ := hdesc
        exact hcyc p h o ho h'
      · subst h
        rcases (h3 _ _).1 hpv with h | ⟨_, e'⟩
        · exact hmecK e (hKn e he) (hc.wf.edgeNodes _ _ h).1
        · exact i1 (by rw [← mec_inj e']; exact he)
    | @downPar v p _ hvO hpv ih =>
      obtain ⟨i1, i2, i3, i4⟩ := ih
      obtain ⟨o, ho, hvo⟩ := hvO
      have hdesc : ∃ o ∈ O, mg.DescEq p o := ⟨o, ho, ReflTransGen.head hpv hvo⟩
      refine ⟨fun h => ?_, fun e he h => ?_, fun _ => Or.inr hdesc, fun e he => .downPar (i4 e he) ⟨o, hOF e he o ho, hvo⟩ hpv⟩
      · exact hcyc p h o ho (ReflTransGen.head hpv hvo)
      · subst h
        rcases (h3 _ _).1 hpv with h | ⟨_, e'⟩
        · exact hmecK e (hKn e he) (hc.wf.edgeNodes _ _ h).1
        · exact i1 (by rw [← mec_inj e']; exact he)
    | @upCh v c _ hvO hvc ih =>
      obtain ⟨i1, i2, i3, i4⟩ := ih
      have hF := hpass i1 i4 hvO
      refine ⟨fun h => ?_, fun e he h => ?_, fun h => by simp at h, fun e he => .upCh (i4 e he) (hF e he) hvc⟩
      · rcases (h3 _ _).1 hvc with h' | ⟨_, e'⟩
        · exact hF c h (mem_family.2 (Or.inr h'))
        · exact i2 c h e'
      · subst h; exact hsrc _ (hKn e he) _ hvc
    | @downCh v c _ hvO hvc ih =>
      obtain ⟨i1, i2, i3, i4⟩ := ih
      have hF := hpass i1 i4 hvO
      refine ⟨fun h => ?_, fun e he h => ?_, fun h => by simp at h, fun e he => .downCh (i4 e he) (hF e he) hvc⟩
      · rcases (h3 _ _).1 hvc with h' | ⟨_, e'⟩
        · exact hF c h (mem_family.2 (Or.inr h'))
        · exact i2 c h e'
      · subst h; exact hsrc _ (hKn e he) _ hvc
  obtain ⟨i1, _, _, i4⟩ := key hball
  refine mech_sep hc hm hw h3 h4 (hK d hd) hu hdu hx (hrel d hd) ⟨hpass i1 i4 huO d hd, dir, i4 d hd⟩

end Net
end Verif
