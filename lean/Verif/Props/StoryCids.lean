import Verif.Model.StoryCids
import Verif.Props.VocComplete
import Verif.Props.RiComplete
import Verif.Props.IciMeaning
import Verif.Props.RiMeaning
import Verif.Lemmas.Build

/-!
# C129: the incentives in the story diagrams
-/

namespace Verif
open Net Graph Relation Macid

/-- Observing `x` before the decision `d` is worth something under some CPDs. -/
def Informative (net : Net) (d x : Node) : Prop :=
  ∃ rels cid, net.addCpds rels = (cid, .ok ()) ∧ cid.m = net.m ∧ cid.Usable ∧
    ∃ n1 n2 r1 r2, Observing cid d x n1 ∧ NotObserving cid d x n2 ∧ n1.IsMaxEU 0 r1 ∧ n2.IsMaxEU 0 r2 ∧ r2 < r1

/-- Under some CPDs every optimal rule of `d` responds to interventions on `x`. -/
def Compelling (net : Net) (d x : Node) : Prop :=
  ∃ rels cid, net.addCpds rels = (cid, .ok ()) ∧ cid.m = net.m ∧ cid.Usable ∧ AlwaysResponds cid d x

/-- Under some CPDs choosing the CPD of `x` as well is worth something. -/
def Controllable (net : Net) (x : Node) : Prop :=
  ∃ rels cid, net.addCpds rels = (cid, .ok ()) ∧ cid.m = net.m ∧ cid.Usable ∧ ∃ r, cid.IsMaxEU 0 r ∧
    ∃ n, n.Usable ∧ OnlyRules cid (x :: cid.m.decisions) n ∧ r < n.EU 0

/-- The builder returns a diagram without CPDs for which, whatever order networkx and sets use, the four functions return these lists; and the first, the
second and the last list are the nodes for which CPDs exist that make the incentive real. -/
def Story (b : Py Net) (d : Node) (voi ri ici voc : List Node) : Prop :=
  ∃ net, b = .ok net ∧ net.Fresh ∧
    (∀ (pick : Pick) (tpick : List Node → Nat) (setOrd : ListOrder), (∀ l, (setOrd l).Perm l) →
      (∃ l, admitsVoiList pick tpick setOrd net d = .ok l ∧ l.Perm voi) ∧ admitsRiList pick tpick setOrd net d = .ok ri ∧
      admitsIciList net d = .ok ici ∧ admitsVocList pick tpick setOrd net = .ok voc) ∧
    (∀ x ∈ net.g.nodes, net.m.role x = .chance → (x ∈ voi ↔ Informative net d x)) ∧
    (∀ x ∈ net.g.nodes, x ≠ d → (x ∈ ri ↔ Compelling net d x)) ∧
    ∀ x ∈ net.g.nodes, x ≠ d → (x ∈ voc ↔ Controllable net x)

/-- to be computed for the diagram -/
def oneDecisionB (m : Macid) (d u : Node) : Bool :=
  staffedB m && decide (m.agents.length ≤ 1) && decide (m.decisions = [d]) && decide (m.utilities = [u]) && decide (m.role d = .decision 0) &&
    decide (u ∈ m.g.descendants d) && m.g.edges.all (fun e => decide (e.1 ≠ u))

/-- to be computed for one order -/
def answersB (net : Net) (d : Node) (voi ri ici voc : List Node) : Bool :=
  (net.g.nodes.all fun x => decide (admitsVoi (fun _ => 0) (fun _ => 0) id net d x = .ok (decide (x ∈ voi))) &&
    decide (admitsRi (fun _ => 0) (fun _ => 0) id net d x = .ok (decide (x ∈ ri))) && decide (admitsIci net d x = .ok (decide (x ∈ ici))) &&
    decide (admitsVoc (fun _ => 0) (fun _ => 0) id net x = .ok (decide (x ∈ voc)))) &&
  decide ((net.g.nodes.filter (fun x => decide (x ∉ net.g.descendants d ∧ x ≠ d))).filter (fun x => decide (x ∈ voi)) = voi) &&
  decide (net.g.nodes.filter (fun x => decide (x ∈ ri)) = ri) && decide (net.g.nodes.filter (fun x => decide (x ∈ ici)) = ici) &&
  decide (net.g.nodes.filter (fun x => decide (x ∈ voc)) = voc)

theorem filterM'_all {f : Node → Py Bool} {p : Node → Bool} {l : List Node} (h : ∀ x ∈ l, f x = .ok (p x)) : filterM' f l = .ok (l.filter p) := by
  induction l with
  | nil => rfl
  | cons x l ih =>
    have h1 := h x (by simp)
    have h2 := ih (fun y hy => h y (by simp [hy]))
    unfold filterM'
    rw [h1, h2]
    cases hp : p x <;> simp [hp]

theorem py_same {A B : Py Bool} {b : Bool} (hA : ∃ a, A = .ok a) (hB : B = .ok b) (h : A = .ok true ↔ B = .ok true) : A = .ok b := by
  obtain ⟨a, rfl⟩ := hA
  subst hB
  cases a <;> cases b <;> simp_all

theorem oneDecision_of {net : Net} {d u : Node} {edges : List (Node × Node)} (hi : Macid.init edges [(0, [d])] [(0, [u])] = .ok net.m) (hf : net.Fresh)
    (hdu : d ≠ u) (hn : d ∈ net.g.nodes) (hn' : u ∈ net.g.nodes)
    (hb : net.base = Macid.newCid) (hnames : NamesOk net.g) (hB : oneDecisionB net.m d u = true) :
    OneDecision net d ∧ (∀ v a, net.m.role v = .utility a → net.g.DescEq d v) := by
  unfold oneDecisionB at hB
  simp only [Bool.and_eq_true, decide_eq_true_eq, List.all_eq_true] at hB
  obtain ⟨⟨⟨⟨⟨⟨c1, c2⟩, c3⟩, c4⟩, c5⟩, c6⟩, c7⟩ := hB
  have hcons := C15_constructor_consistent _ _ _ _ hi (by simp [Dict.keys]) (by simp [Dict.keys]) (by simp [hdu]) (by simp; exact ⟨hn, hn'⟩)
  have hut : ∀ v a, net.m.role v = .utility a → v = u := by
    intro v a hv
    have : v ∈ net.m.utilities := Dict.mem_keys.2 ⟨a, (role_utility hcons).1 hv⟩
    rw [c4] at this
    simpa using this
  refine ⟨⟨hf, hcons, .inr hb, staffed_of c1, hnames, c2, fun e b => ⟨fun h => ?_, ?_⟩, fun w v a hw he => ?_⟩, fun v a hv => ?_⟩
  · have : e ∈ net.m.decisions := decisions_role.2 ⟨b, h⟩
    rw [c3] at this
    have : e = d := by simpa using this
    subst this
    rw [c5] at h
    exact ⟨rfl, by injection h with h; exact h.symm⟩
  · rintro ⟨rfl, rfl⟩
    exact c5
  · exact c7 _ he (hut w a hw)
  · rw [hut v a hv]
    exact ((Graph.mem_descendants hcons.wf).1 c6).to_reflTransGen

theorem story_of {net : Net} {b : Py Net} {d : Node} {voi ri ici voc : List Node} (hb : b = .ok net) (h : OneDecision net d)
    (hu : ∀ v a, net.m.role v = .utility a → net.g.DescEq d v) (hB : answersB net d voi ri ici voc = true) : Story b d voi ri ici voc := by
  unfold answersB at hB
  simp only [Bool.and_eq_true, decide_eq_true_eq, List.all_eq_true] at hB
  obtain ⟨⟨⟨⟨c0, c1⟩, c2⟩, c3⟩, c4⟩ := hB
  have hrec : net.m.Recalls := fun a ds hds => recall_single (d := d) (fun e he => ((h.dec e a).1 ((hds e).1 he)).1)
  have kvoi : ∀ x ∈ net.g.nodes, ∀ (pick : Pick) (tpick : List Node → Nat) (setOrd : ListOrder), (∀ l, (setOrd l).Perm l) →
      admitsVoi pick tpick setOrd net d x = .ok (decide (x ∈ voi)) := by
    intro x hx pick tpick setOrd hset
    have e0 := (c0 x hx).1.1.1
    obtain ⟨p1, p2⟩ := C52_admits_voi h.analysable h.names pick tpick hset h.agents hrec hx h.node
    by_cases hd : net.g.DescEq d x
    · rw [p1 hd, ← e0]
      exact ((C52_admits_voi h.analysable h.names (fun _ => 0) (fun _ => 0) (setOrd := id) (fun _ => .refl _) h.agents hrec hx h.node).1 hd).symm
    · have hch : net.m.role x = .chance := by
        cases hr : net.m.role x with
        | chance => rfl
        | decision a => exact absurd (by rw [((h.dec x a).1 hr).1]; exact .refl) hd
        | utility a => exact absurd (hu x a hr) hd
      obtain ⟨_, _, a, _, _, ha, _⟩ := p2 hd
      exact py_same ⟨a, ha⟩ e0 ((C84_voi_iff h hset hx hch).trans (C84_voi_iff h (setOrd := id) (fun _ => .refl _) hx hch).symm)
  have kri : ∀ x ∈ net.g.nodes, ∀ (pick : Pick) (tpick : List Node → Nat) (setOrd : ListOrder), (∀ l, (setOrd l).Perm l) →
      admitsRi pick tpick setOrd net d x = .ok (decide (x ∈ ri)) := by
    intro x hx pick tpick setOrd hset
    obtain ⟨a, a1, a2⟩ := admitsRi_one h.analysable h.names h.agents h.dec pick tpick hset hx h.node
    obtain ⟨a', b1, b2⟩ := admitsRi_one h.analysable h.names h.agents h.dec (fun _ => 0) (fun _ => 0) (setOrd := id) (fun _ => .refl _) hx h.node
    rw [a1, ← (c0 x hx).1.1.2, b1]
    congr 1
    exact Bool.eq_iff_iff.2 (a2.trans b2.symm)
  have kvoc : ∀ x ∈ net.g.nodes, ∀ (pick : Pick) (tpick : List Node → Nat) (setOrd : ListOrder), (∀ l, (setOrd l).Perm l) →
      admitsVoc pick tpick setOrd net x = .ok (decide (x ∈ voc)) := by
    intro x hx pick tpick setOrd hset
    have key : ∀ (pick : Pick) (tpick : List Node → Nat) (setOrd : ListOrder), (∀ l, (setOrd l).Perm l) →
        ∃ a, admitsVoc pick tpick setOrd net x = .ok a ∧ (x = d → a = false) := by
      intro pick tpick setOrd hset
      obtain ⟨rg, _, _, q, _⟩ := C54_admits_ri h.analysable h.names pick tpick hset h.agents hrec hx h.node
      obtain ⟨a, a1, a2⟩ := C56_admits_voc h.analysable h.names hset h.agents hrec hx q
      refine ⟨a, a1, ?_⟩
      rintro rfl
      by_contra hc
      exact (a2.1 (by simpa using hc)).1 0 h.isDec
    obtain ⟨a, a1, a2⟩ := key pick tpick setOrd hset
    have e0 := (c0 x hx).2
    by_cases hxd : x = d
    · obtain ⟨a', b1, b2⟩ := key (fun _ => 0) (fun _ => 0) id (fun _ => .refl _)
      rw [a1, ← e0, b1, a2 hxd, b2 hxd]
    · exact py_same ⟨a, a1⟩ e0 ((C85_voc_iff h hset hx hxd).trans (C85_voc_iff h (setOrd := id) (fun _ => .refl _) hx hxd).symm)
  refine ⟨net, hb, h.fresh, fun pick tpick setOrd hset => ⟨?_, ?_, ?_, ?_⟩, fun x hx hch => ?_, fun x hx hxd => ?_, fun x hx hxd => ?_⟩
  · refine ⟨(setOrd (net.g.nodes.filter (fun x => decide (x ∉ net.g.descendants d ∧ x ≠ d)))).filter (fun x => decide (x ∈ voi)), ?_, ?_⟩
    · unfold admitsVoiList
      rw [if_neg (by simpa using h.node)]
      exact filterM'_all (fun x hx => kvoi x (List.mem_of_mem_filter ((hset _).mem_iff.1 hx)) pick tpick setOrd hset)
    · exact ((hset _).filter _).trans (.of_eq c1)
  · unfold admitsRiList
    rw [filterM'_all (fun x hx => kri x hx pick tpick setOrd hset), c2]
  · unfold admitsIciList
    rw [filterM'_all (fun x hx => (c0 x hx).1.2), c3]
  · unfold admitsVocList
    rw [filterM'_all (fun x hx => kvoc x hx pick tpick setOrd hset), c4]
  · unfold Informative
    rw [← C84_voi_iff (pick := fun _ => 0) (tpick := fun _ => 0) h (setOrd := id) (fun _ => .refl _) hx hch, kvoi x hx _ _ id (fun _ => .refl _)]
    simp
  · unfold Compelling
    rw [← C93_ri_iff (pick := fun _ => 0) (tpick := fun _ => 0) h (setOrd := id) (fun _ => .refl _) hx hxd, kri x hx _ _ id (fun _ => .refl _)]
    simp
  · unfold Controllable
    rw [← C85_voc_iff (pick := fun _ => 0) (tpick := fun _ => 0) h (setOrd := id) (fun _ => .refl _) hx hxd, kvoc x hx _ _ id (fun _ => .refl _)]
    simp

/-- the diagram that the constructor builds -/
def storyM (edges : List (Node × Node)) (d u : Node) : Macid :=
  match Macid.init edges [(0, [d])] [(0, [u])] with
  | .ok m => m
  | .error _ => ⟨Graph.empty, [], [], [], []⟩

def storyNet (edges : List (Node × Node)) (d u : Node) : Net := ⟨storyM edges d u, [], [], [], Macid.newCid⟩

/-- what has to be computed for a story -/
structure StoryFacts (edges : List (Node × Node)) (d u : Node) (voi ri ici voc : List Node) : Prop where
  init : Macid.init edges [(0, [d])] [(0, [u])] = .ok (storyM edges d u)
  ne : d ≠ u
  mem : d ∈ (storyM edges d u).g.nodes ∧ u ∈ (storyM edges d u).g.nodes
  names : NamesOk (storyM edges d u).g
  one : oneDecisionB (storyM edges d u) d u = true
  ans : answersB (storyNet edges d u) d voi ri ici voc = true

namespace StoryFacts

variable {edges : List (Node × Node)} {d u : Node} {voi ri ici voc : List Node}

theorem built (h : StoryFacts edges d u voi ri ici voc) : cidOf edges [d] [u] [] = .ok (storyNet edges d u) := by
  unfold cidOf
  rw [h.init]
  rfl

theorem oneDec (h : StoryFacts edges d u voi ri ici voc) : OneDecision (storyNet edges d u) d ∧
    ∀ v a, (storyNet edges d u).m.role v = .utility a → (storyNet edges d u).g.DescEq d v :=
  oneDecision_of h.init ⟨rfl, rfl, rfl⟩ h.ne h.mem.1 h.mem.2 rfl h.names h.one

theorem story (h : StoryFacts edges d u voi ri ici voc) : Story (cidOf edges [d] [u] []) d voi ri ici voc :=
  story_of h.built h.oneDec.1 h.oneDec.2 h.ans

end StoryFacts

theorem fitness_facts : StoryFacts [("TD", "TF"), ("TF", "SC"), ("TF", "C"), ("EF", "EWD"), ("EWD", "C"), ("C", "F"), ("P", "D"), ("P", "SC"), ("P", "F"), ("SC", "C"), ("SC", "EWD")]
    "C" "F" ["TF", "SC", "P", "D"] ["TD", "TF", "SC", "P"] ["C", "F"] ["TD", "TF", "SC", "F", "P"] :=
  ⟨by decide +kernel, by decide, by decide +kernel, ⟨by decide +kernel, by decide +kernel⟩, by decide +kernel, by decide +kernel⟩

theorem car_facts : StoryFacts [("B", "N"), ("N", "AP"), ("N", "P"), ("P", "Race"), ("Age", "Adt"), ("Adt", "Race"), ("Race", "Accu"), ("M", "AP"), ("AP", "Accu")]
    "AP" "Accu" ["N", "P", "Race", "Age", "Adt"] ["B", "N"] ["AP", "Accu"] ["B", "N", "P", "Race", "Age", "Adt", "Accu"] :=
  ⟨by decide +kernel, by decide, by decide +kernel, ⟨by decide +kernel, by decide +kernel⟩, by decide +kernel, by decide +kernel⟩

theorem recommender_facts : StoryFacts [("O", "I"), ("O", "M"), ("M", "P"), ("P", "I"), ("I", "C"), ("P", "C")]
    "P" "C" ["O", "M"] ["O", "M"] ["I", "P", "C"] ["O", "I", "M", "C"] :=
  ⟨by decide +kernel, by decide, by decide +kernel, ⟨by decide +kernel, by decide +kernel⟩, by decide +kernel, by decide +kernel⟩

theorem recommender2_facts : StoryFacts [("O", "M"), ("M", "P"), ("P", "I"), ("I", "C"), ("P", "C")] "P" "C" [] [] ["P", "I", "C"] ["I", "C"] :=
  ⟨by decide +kernel, by decide, by decide +kernel, ⟨by decide +kernel, by decide +kernel⟩, by decide +kernel, by decide +kernel⟩

theorem modified_facts : StoryFacts [("O", "I"), ("O", "M"), ("M", "P"), ("P", "I"), ("P", "C"), ("M", "C")]
    "P" "C" ["M"] ["O", "M"] ["P", "C"] ["O", "M", "C"] :=
  ⟨by decide +kernel, by decide, by decide +kernel, ⟨by decide +kernel, by decide +kernel⟩, by decide +kernel, by decide +kernel⟩

theorem grade_facts : StoryFacts [("R", "HS"), ("HS", "E"), ("HS", "P"), ("E", "Gr"), ("Gr", "Ac"), ("Ge", "P"), ("P", "Ac")]
    "P" "Ac" ["HS", "E", "Gr"] ["R", "HS"] ["P", "Ac"] ["R", "HS", "E", "Gr", "Ac"] :=
  ⟨by decide +kernel, by decide, by decide +kernel, ⟨by decide +kernel, by decide +kernel⟩, by decide +kernel, by decide +kernel⟩

/-- **C129** The incentives in the six story diagrams: values of information, response incentives, instrumental control incentives and values of control.
The answers do not depend on the order networkx and sets use, and they are those for which CPDs exist. -/
theorem C129_stories :
    Story fitnessTracker "C" ["TF", "SC", "P", "D"] ["TD", "TF", "SC", "P"] ["C", "F"] ["TD", "TF", "SC", "F", "P"] ∧
    Story carAccidentPredictor "AP" ["N", "P", "Race", "Age", "Adt"] ["B", "N"] ["AP", "Accu"] ["B", "N", "P", "Race", "Age", "Adt", "Accu"] ∧
    Story contentRecommender "P" ["O", "M"] ["O", "M"] ["I", "P", "C"] ["O", "I", "M", "C"] ∧
    Story contentRecommender2 "P" [] [] ["P", "I", "C"] ["I", "C"] ∧
    Story modifiedContentRecommender "P" ["M"] ["O", "M"] ["P", "C"] ["O", "M", "C"] ∧
    Story gradePredictor "P" ["HS", "E", "Gr"] ["R", "HS"] ["P", "Ac"] ["R", "HS", "E", "Gr", "Ac"] :=
  ⟨fitness_facts.story, car_facts.story, recommender_facts.story, recommender2_facts.story, modified_facts.story, grade_facts.story⟩

/-- **C129** The grade predictor: whatever CPDs the diagram is given, some optimal rule takes no account of gender `Ge`, nor of education `E` or of the
grade `Gr`: no intervention on these changes any probability about the prediction.  There are CPDs under which every optimal rule responds to race `R`. -/
theorem C129_grade_predictor : ∃ net, gradePredictor = .ok net ∧
    (∀ cid, cid.Usable → cid.m = net.m → ∃ n, n.Usable ∧ OnlyRules cid cid.m.decisions n ∧ cid.IsMaxEU 0 (n.EU 0) ∧
      ∀ x ∈ ["Ge", "E", "Gr"], ∀ v, n.IntOk [(x, v)] → ∀ E : Outcome → Bool, n.PDo [(x, v)] (fun a => E (a "P")) = n.P (fun a => E (a "P"))) ∧
    ∃ rels cid, net.addCpds rels = (cid, .ok ()) ∧ cid.m = net.m ∧ cid.Usable ∧ AlwaysResponds cid "P" "R" := by
  obtain ⟨h, -⟩ := grade_facts.oneDec
  obtain ⟨net, e, -, hl, -, hri, -⟩ := grade_facts.story
  rw [grade_facts.built] at e
  cases e
  refine ⟨_, grade_facts.built, fun cid hU hm => ?_, (hri "R" (by decide +kernel) (by decide)).1 (by simp)⟩
  have hg : cid.g = (storyNet [("R", "HS"), ("HS", "E"), ("HS", "P"), ("E", "Gr"), ("Gr", "Ac"), ("Ge", "P"), ("P", "Ac")] "P" "Ac").g := by unfold Net.g; rw [hm]
  have hrec : cid.m.Recalls := by
    rw [hm]
    exact fun a ds hds => recall_single (d := "P") (fun e he => ((h.dec e a).1 ((hds e).1 he)).1)
  have hno : ∀ x ∈ ["Ge", "E", "Gr"], x ∈ cid.g.nodes ∧ admitsRi (fun _ => 0) (fun _ => 0) id cid "P" x = .ok false := by
    intro x hx
    have hk : ∀ x ∈ ["Ge", "E", "Gr"], x ∈ (storyNet [("R", "HS"), ("HS", "E"), ("HS", "P"), ("E", "Gr"), ("Gr", "Ac"), ("Ge", "P"), ("P", "Ac")] "P" "Ac").g.nodes ∧
        admitsRi (fun _ => 0) (fun _ => 0) id (storyNet [("R", "HS"), ("HS", "E"), ("HS", "P"), ("E", "Gr"), ("Gr", "Ac"), ("Ge", "P"), ("P", "Ac")] "P" "Ac") "P" x = .ok false := by
      decide +kernel
    obtain ⟨k1, k2⟩ := hk x hx
    have k3 : x ∈ cid.g.nodes := by rw [hg]; exact k1
    obtain ⟨b, b1, b2⟩ := admitsRi_one h.analysable h.names h.agents h.dec (fun _ => 0) (fun _ => 0) (setOrd := id) (fun _ => .refl _) k1 h.node
    obtain ⟨b', c1, c2⟩ := admitsRi_one (d := "P") hU.analysable (by rw [hg]; exact h.names) (by rw [hm]; exact h.agents) (by rw [hm]; exact h.dec) (fun _ => 0) (fun _ => 0)
      (setOrd := id) (fun _ => .refl _) k3 (by rw [hg]; exact h.node)
    refine ⟨k3, ?_⟩
    rw [c1]
    rw [k2] at b1
    cases b1
    rw [hg, hm] at c2
    have : b' = false := by
      by_contra hc
      exact absurd (b2.2 (c2.1 (by simpa using hc))) (by simp)
    rw [this]
  obtain ⟨n, n1, n2, n3, n4⟩ := C87_no_response hU (by rw [hg]; exact h.names) (pick := fun _ => 0) (tpick := fun _ => 0) (setOrd := id) (fun _ => .refl _)
    (by rw [hm]; exact h.agents) hrec (a := 0) (by rw [hm]; decide +kernel)
  refine ⟨n, n1, n2, n3, fun x hx v hv E => n4 x v hv _ ?_⟩
  intro a b hab
  simp only
  rw [hab "P" (.inl ⟨by rw [hm]; decide +kernel, ?_, (hno x hx).2⟩)]
  rintro rfl
  simp at hx

/-- **C129** The content recommenders: in the original diagram there are CPDs under which the recommended posts `P` influence the opinions `I`, these
influence the clicks `C`, and the posts influence the clicks through the opinions only.  In the modified diagram, whatever the CPDs, interventions
on the opinions do not change the probabilities of the clicks. -/
theorem C129_content_recommender : (∃ net, contentRecommender = .ok net ∧
      ∃ rels cid, net.addCpds rels = (cid, .ok ()) ∧ cid.m = net.m ∧ cid.Usable ∧ ∃ v0 v1 w0 w1,
        cid.IntOk [("P", v0)] ∧ cid.IntOk [("P", v1)] ∧ cid.IntOk [("I", w0)] ∧ cid.IntOk [("I", w1)] ∧
        cid.Mean [("P", v0)] [] "I" < cid.Mean [("P", v1)] [] "I" ∧ cid.Mean [("I", w0)] [] "C" < cid.Mean [("I", w1)] [] "C" ∧
        cid.Mean [("P", v0)] [] "C" < cid.Mean [("P", v1)] [] "C" ∧
        ∀ v v' w, cid.IntOk [("P", v), ("I", w)] → cid.IntOk [("P", v'), ("I", w)] → cid.Mean [("P", v), ("I", w)] [] "C" = cid.Mean [("P", v'), ("I", w)] [] "C") ∧
    ∃ net, modifiedContentRecommender = .ok net ∧ ∀ cid : Net, cid.Usable → cid.m = net.m → ∀ v, cid.IntOk [("I", v)] → ∀ c,
      cid.PDo [("I", v)] (fun b => decide (b "C" = c)) = cid.P (fun b => decide (b "C" = c)) := by
  constructor
  · obtain ⟨h, -⟩ := recommender_facts.oneDec
    refine ⟨_, recommender_facts.built, ?_⟩
    obtain ⟨rels, cid, k1, k2, k3, u, a, ku, v0, v1, w0, w1, i1, i2, i3, i4, m1, m2, m3, m4⟩ := C86_incentive (x := "I") h.fresh h.roles h.base h.staffed h.agents
      (by decide +kernel) h.node (by decide +kernel)
    have hu : u = "C" := by
      have : u ∈ cid.m.utilities := Dict.mem_keys.2 ⟨a, (role_utility k3.roles).1 ku⟩
      rw [k2, show (storyNet [("O", "I"), ("O", "M"), ("M", "P"), ("P", "I"), ("I", "C"), ("P", "C")] "P" "C").m.utilities = ["C"] by decide +kernel] at this
      simpa using this
    subst hu
    exact ⟨rels, cid, k1, k2, k3, v0, v1, w0, w1, i1, i2, i3, i4, m1, m2, m3, m4 (by decide)⟩
  · refine ⟨_, modified_facts.built, fun cid hU hm v hv c => ?_⟩
    have hg : cid.g = (storyM [("O", "I"), ("O", "M"), ("M", "P"), ("P", "I"), ("P", "C"), ("M", "C")] "P" "C").g := by unfold Net.g; rw [hm]; rfl
    refine do_nondescendant hU hv (by rw [hg]; decide +kernel) (fun q => ?_) c
    rcases ReflTransGen.cases_head q with q | ⟨w, q, -⟩
    · simp at q
    · rw [hg] at q
      have : ∀ e ∈ (storyM [("O", "I"), ("O", "M"), ("M", "P"), ("P", "I"), ("P", "C"), ("M", "C")] "P" "C").g.edges, e.1 ≠ "I" := by decide +kernel
      exact this _ q rfl

end Verif
