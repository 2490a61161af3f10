import Verif.Model.Export
import Verif.Props.Efg
import Verif.Lemmas.Build

/-!
# C109: writing a game to a file
-/

namespace Verif
open Net

/-- the text made of the pieces -/
def joinText (ps : List String) : String := ps.foldr (· ++ ·) ""

theorem joinText_cons (p : String) (ps : List String) : joinText (p :: ps) = p ++ joinText ps := rfl

theorem saving_mem {disk d : Disk} {filename : String} : ∀ (ps : List String) (done : String),
    d ∈ Disk.saving disk filename done ps → ∃ written rest, done ++ joinText ps = written ++ rest ∧ d = disk.set filename written
  | [], done, h => by
    simp only [Disk.saving, List.mem_singleton] at h
    exact ⟨done, joinText [], rfl, h⟩
  | p :: ps, done, h => by
    simp only [Disk.saving, List.mem_cons] at h
    rcases h with h | h
    · exact ⟨done, joinText (p :: ps), rfl, h⟩
    · obtain ⟨w, r, e, hd⟩ := saving_mem ps _ h
      exact ⟨w, r, by rw [joinText_cons, ← String.append_assoc]; exact e, hd⟩

theorem saving_last (disk : Disk) (filename : String) : ∀ (ps : List String) (done : String) (d : Disk),
    (d :: Disk.saving disk filename done ps).getLast? = some (disk.set filename (done ++ joinText ps))
  | [], done, d => by simp [Disk.saving, joinText]
  | p :: ps, done, d => by
    have := saving_last disk filename ps (done ++ p) (disk.set filename done)
    rw [Disk.saving, List.getLast?_cons_cons, this, joinText_cons, String.append_assoc]

/-- **C109** If the call returns, it returns True, the network is unchanged, and in the end the file contains the game of
all decisions and all agents, and every other file is as it was. -/
theorem C109_returns {net net' : Net} (hU : net.Usable) (hj : Joined net.g) {pick : Pick} {tpick : List Node → Nat}
    {ord : List Node → List Node} (hord : ∀ l, (ord l).Perm l) {render : Efg → String} {pieces : String → List String}
    (hp : ∀ s, joinText (pieces s) = s) {disk : Disk} {filename : String} {seen : List Disk} {b : Bool}
    (h : net.macidToGambitFile pick tpick ord render pieces disk filename = (net', seen, .ok b)) :
    b = true ∧ net' = net ∧ ∃ nodes t after, nodes.Nodup ∧ (∀ v, v ∈ nodes ↔ net.InTree net.m.decisions v) ∧
      IsTree net net.m.decisions net.m.agents nodes t ∧ seen.getLast? = some after ∧
      after.get? filename = some (render t) ∧ ∀ other, other ≠ filename → after.get? other = disk.get? other := by
  unfold macidToGambitFile at h
  generalize hg : Net.macidToEfg pick tpick ord net net.m.decisions net.m.agents = x at h
  obtain ⟨n, y⟩ := x
  cases y with
  | error e => simp at h
  | ok t =>
    simp only [Prod.mk.injEq, Except.ok.injEq] at h
    obtain ⟨rfl, rfl, rfl⟩ := h
    obtain ⟨h1, nodes, h2, h3, _, h4, _⟩ := C66_game_tree hU hj hord hg
    refine ⟨rfl, h1, nodes, t, _, h2, h3, h4, saving_last _ _ _ _ _, ?_, ?_⟩
    · rw [Dict.get?_set, if_pos rfl, hp]
      simp
    · intro other ho
      rw [Dict.get?_set, if_neg ho]

/-- **C109** If the game cannot be built, the exception is raised before the file is touched. -/
theorem C109_raises {net net' : Net} {pick : Pick} {tpick : List Node → Nat} {ord : List Node → List Node} {render : Efg → String}
    {pieces : String → List String} {disk : Disk} {filename : String} {seen : List Disk} {e : Err}
    (h : net.macidToGambitFile pick tpick ord render pieces disk filename = (net', seen, .error e)) :
    (Net.macidToEfg pick tpick ord net net.m.decisions net.m.agents).2 = .error e ∧ ∀ d ∈ seen, d = disk := by
  unfold macidToGambitFile at h
  generalize hg : Net.macidToEfg pick tpick ord net net.m.decisions net.m.agents = x at h
  obtain ⟨n, y⟩ := x
  cases y with
  | ok t => simp at h
  | error e' =>
    simp only [Prod.mk.injEq, Except.error.injEq] at h
    obtain ⟨rfl, rfl, rfl⟩ := h
    exact ⟨rfl, by simp⟩

/-- **C109** Wherever the program is killed, other files are as they were and the file holds its old content or a beginning of
the new text. -/
theorem C109_killed {net : Net} {pick : Pick} {tpick : List Node → Nat} {ord : List Node → List Node} {render : Efg → String}
    {pieces : String → List String} (hp : ∀ s, joinText (pieces s) = s) {disk : Disk} {filename : String} {d : Disk}
    (h : d ∈ (net.macidToGambitFile pick tpick ord render pieces disk filename).2.1) :
    (∀ other, other ≠ filename → d.get? other = disk.get? other) ∧
    (d.get? filename = disk.get? filename ∨
      ∃ t, (Net.macidToEfg pick tpick ord net net.m.decisions net.m.agents).2 = .ok t ∧
        ∃ written rest, render t = written ++ rest ∧ d.get? filename = some written) := by
  unfold macidToGambitFile at h
  generalize hg : Net.macidToEfg pick tpick ord net net.m.decisions net.m.agents = x at h ⊢
  obtain ⟨n, y⟩ := x
  cases y with
  | error e' =>
    simp only [List.mem_singleton] at h
    subst h
    exact ⟨fun _ _ => rfl, Or.inl rfl⟩
  | ok t =>
    simp only [List.mem_cons] at h
    rcases h with rfl | h
    · exact ⟨fun _ _ => rfl, Or.inl rfl⟩
    · obtain ⟨w, r, e, rfl⟩ := saving_mem _ _ h
      rw [hp] at e
      refine ⟨fun other ho => by rw [Dict.get?_set, if_neg ho], Or.inr ⟨t, rfl, w, r, by simpa using e, ?_⟩⟩
      rw [Dict.get?_set, if_pos rfl]

/-- FALSE that an earlier file survives until the new one is complete: a program killed at the wrong moment leaves an empty
file in place of the old game. Whatever the buffer does, there is such a moment. -/
theorem C109_killed_counterexample (render : Efg → String) (pieces : String → List String) (old : String) :
    ExG.net.Usable ∧ Joined ExG.net.g ∧
    ∃ d ∈ (ExG.net.macidToGambitFile (fun _ => 0) (fun _ => 0) id render pieces [("macid.efg", old)] "macid.efg").2.1,
      d.get? "macid.efg" = some "" := by
  refine ⟨ExG.usable.1, joined_of ExG.usable.1.good (by decide +kernel), ?_⟩
  obtain ⟨_, hT, t, ht, _⟩ := C66_example
  have e1 : ExG.net.m.decisions = ["D1", "D2"] := by decide +kernel
  have e2 : ExG.net.m.agents = [0, 1] := by decide +kernel
  unfold macidToGambitFile
  rw [e1, e2]
  generalize Net.macidToEfg (fun _ => 0) (fun _ => 0) id ExG.net ["D1", "D2"] [0, 1] = x at ht ⊢
  obtain ⟨n, y⟩ := x
  simp only at ht
  subst ht
  refine ⟨Dict.set [("macid.efg", old)] "macid.efg" "", List.mem_cons_of_mem _ ?_, ?_⟩
  · cases pieces (render t) <;> simp [Disk.saving]
  · rw [Dict.get?_set, if_pos rfl]

/-- the game of the example is written -/
theorem C109_example (render : Efg → String) (disk : Disk) : ∃ t,
    (ExG.net.macidToGambitFile (fun _ => 0) (fun _ => 0) id render (fun s => [s]) disk "g.efg").2 =
      ([disk, disk.set "g.efg" "", disk.set "g.efg" (render t)], .ok true) ∧ t.players = [0, 1] ∧ t.payoffs.length = 4 ∧
    ∀ s : String, joinText [s] = s := by
  obtain ⟨_, hT, t, ht, h1, h2, h3⟩ := C66_example
  have e1 : ExG.net.m.decisions = ["D1", "D2"] := by decide +kernel
  have e2 : ExG.net.m.agents = [0, 1] := by decide +kernel
  have h4 : t.players = [0, 1] := by
    have hr : ((Net.macidToEfg (fun _ => 0) (fun _ => 0) id ExG.net ["D1", "D2"] [0, 1]).2.toOption.map (·.players)) = some [0, 1] := by
      decide +kernel
    rw [ht] at hr
    simpa [Except.toOption] using hr
  refine ⟨t, ?_, h4, by rw [h3]; rfl, fun s => by simp [joinText]⟩
  unfold macidToGambitFile
  rw [e1, e2]
  generalize Net.macidToEfg (fun _ => 0) (fun _ => 0) id ExG.net ["D1", "D2"] [0, 1] = x at ht ⊢
  obtain ⟨n, y⟩ := x
  simp only at ht
  subst ht
  simp [Disk.saving]

/-- D → U with a second player who decides E but has no utility -/
def ExMute.net : Net := build ⟨⟨["D", "U", "E"], [("D", "U"), ("E", "U")]⟩, [(0, ["D"]), (1, ["E"])], [(0, ["U"])],
  [("D", 0), ("E", 1)], [("U", 0)]⟩ Macid.new
  [("D", .seq [0, 1]), ("E", .seq [0, 1]), ("U", .func (fun pv => .ok (.val ((pv "D").getD 0 + (pv "E").getD 0))))]

/-- FALSE that every small game can be written: a player without a utility node does not count as an agent, and the game cannot
be built. The file is left alone. -/
theorem C109_player_without_utility (render : Efg → String) (pieces : String → List String) (disk : Disk) :
    ExMute.net.m.decisions = ["D", "E"] ∧ ExMute.net.m.agents = [0] ∧ Joined ExMute.net.g ∧
    (ExMute.net.macidToGambitFile (fun _ => 0) (fun _ => 0) id render pieces disk "g.efg").2 = ([disk], .error .key) := by
  have e1 : ExMute.net.m.decisions = ["D", "E"] := by decide +kernel
  have e2 : ExMute.net.m.agents = [0] := by decide +kernel
  have hw : ExMute.net.g.WF := wf_of_ofEdges (es := [("D", "U"), ("E", "U")]) (by decide +kernel)
  refine ⟨e1, e2, fun u hu v hv => (mem_component hw).1 ?_, ?_⟩
  · revert u v
    decide +kernel
  · have hr : (Net.macidToEfg (fun _ => 0) (fun _ => 0) id ExMute.net ["D", "E"] [0]).2 = .error .key := by decide +kernel
    unfold macidToGambitFile
    rw [e1, e2]
    generalize Net.macidToEfg (fun _ => 0) (fun _ => 0) id ExMute.net ["D", "E"] [0] = x at hr ⊢
    obtain ⟨n, y⟩ := x
    simp only at hr
    subst hr
    rfl

end Verif
