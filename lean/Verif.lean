import Verif.Model.Alias
import Verif.Model.Analyze
import Verif.Model.Call
import Verif.Model.Cbn
import Verif.Model.CondExp
import Verif.Model.Cpd
import Verif.Model.DSep
import Verif.Model.Draw
import Verif.Model.Effects
import Verif.Model.Efg
import Verif.Model.Export
import Verif.Model.Games
import Verif.Model.Graph
import Verif.Model.Home
import Verif.Model.Infer
import Verif.Model.Label
import Verif.Model.Macid
import Verif.Model.Names
import Verif.Model.Net
import Verif.Model.OneShot
import Verif.Model.Optimal
import Verif.Model.Paths
import Verif.Model.Patterns
import Verif.Model.Policy
import Verif.Model.Py
import Verif.Model.Random
import Verif.Model.RandomCpd
import Verif.Model.RandomGames
import Verif.Model.Remove
import Verif.Model.Repr
import Verif.Model.SimpleCbns
import Verif.Model.SimpleCids
import Verif.Model.SmallCids
import Verif.Model.StoryCids
import Verif.Model.StoryMacids
import Verif.Model.Structural
import Verif.Model.Subgame
import Verif.Model.Topo
import Verif.Spec.Analyze
import Verif.Spec.Answers
import Verif.Spec.Arise
import Verif.Spec.Cbn
import Verif.Spec.Cpd
import Verif.Spec.EdgeEdit
import Verif.Spec.Efg
import Verif.Spec.Equilibria
import Verif.Spec.Existence
import Verif.Spec.FrontDoor
import Verif.Spec.Games
import Verif.Spec.Graph
import Verif.Spec.Home
import Verif.Spec.Information
import Verif.Spec.Label
import Verif.Spec.Laws
import Verif.Spec.Macid
import Verif.Spec.Motives
import Verif.Spec.Names
import Verif.Spec.Net
import Verif.Spec.Patterns
import Verif.Spec.Policy
import Verif.Spec.Prob
import Verif.Spec.Random
import Verif.Spec.RandomCpd
import Verif.Spec.Regime
import Verif.Spec.Relevance
import Verif.Spec.Rescale
import Verif.Spec.Returns
import Verif.Spec.Select
import Verif.Spec.Subgame
import Verif.Spec.Tolerance
import Verif.Spec.Total
import Verif.Spec.Values
import Verif.Lemmas.Accept
import Verif.Lemmas.Active
import Verif.Lemmas.Arise
import Verif.Lemmas.Assign
import Verif.Lemmas.Backdoor
import Verif.Lemmas.Backward
import Verif.Lemmas.Ball
import Verif.Lemmas.Bayes
import Verif.Lemmas.Bet
import Verif.Lemmas.Branch
import Verif.Lemmas.Build
import Verif.Lemmas.Calculus
import Verif.Lemmas.Cbn
import Verif.Lemmas.Clever
import Verif.Lemmas.CondExp
import Verif.Lemmas.Condense
import Verif.Lemmas.Contest
import Verif.Lemmas.Copy
import Verif.Lemmas.Cpd
import Verif.Lemmas.Deaf
import Verif.Lemmas.Dfs
import Verif.Lemmas.Dict
import Verif.Lemmas.Do
import Verif.Lemmas.EdgeEdit
import Verif.Lemmas.Efg
import Verif.Lemmas.EfgGrow
import Verif.Lemmas.EfgRuns
import Verif.Lemmas.EfgTree
import Verif.Lemmas.EfgValue
import Verif.Lemmas.Enumerate
import Verif.Lemmas.Examples
import Verif.Lemmas.Expect
import Verif.Lemmas.Games
import Verif.Lemmas.GamesBuild
import Verif.Lemmas.Gate
import Verif.Lemmas.Graph
import Verif.Lemmas.Guess
import Verif.Lemmas.Improve
import Verif.Lemmas.Incentive
import Verif.Lemmas.Infer
import Verif.Lemmas.Intervene
import Verif.Lemmas.Joint
import Verif.Lemmas.Keyed
import Verif.Lemmas.Laws
import Verif.Lemmas.Markov
import Verif.Lemmas.MaxEU
import Verif.Lemmas.Mech
import Verif.Lemmas.Net
import Verif.Lemmas.NetExamples
import Verif.Lemmas.Optimal
import Verif.Lemmas.Parameterise
import Verif.Lemmas.Paths
import Verif.Lemmas.Perm
import Verif.Lemmas.Policies
import Verif.Lemmas.PolicyRuns
import Verif.Lemmas.Prospect
import Verif.Lemmas.Query
import Verif.Lemmas.Random
import Verif.Lemmas.RandomGame
import Verif.Lemmas.RandomGames
import Verif.Lemmas.RandomLive
import Verif.Lemmas.RandomMade
import Verif.Lemmas.RandomRecall
import Verif.Lemmas.RandomRoles
import Verif.Lemmas.Rare
import Verif.Lemmas.Realize
import Verif.Lemmas.Recall
import Verif.Lemmas.Regime
import Verif.Lemmas.Relay
import Verif.Lemmas.Relevance
import Verif.Lemmas.Rely
import Verif.Lemmas.Remove
import Verif.Lemmas.Requisite
import Verif.Lemmas.Returns
import Verif.Lemmas.Revise
import Verif.Lemmas.Roles
import Verif.Lemmas.Runs
import Verif.Lemmas.Session
import Verif.Lemmas.Signals
import Verif.Lemmas.Stakes
import Verif.Lemmas.Subgame
import Verif.Lemmas.SubgameNet
import Verif.Lemmas.SubgameRun
import Verif.Lemmas.Sum
import Verif.Lemmas.Support
import Verif.Lemmas.TeamSep
import Verif.Lemmas.Teams
import Verif.Lemmas.Tolerance
import Verif.Lemmas.Topo
import Verif.Lemmas.Total
import Verif.Lemmas.Trails
import Verif.Lemmas.Trim
import Verif.Lemmas.Twin
import Verif.Lemmas.WholeGame
import Verif.Lemmas.Wiring
import Verif.Props.Alias
import Verif.Props.Answers
import Verif.Props.Backdoor
import Verif.Props.Calculus
import Verif.Props.CalculusSets
import Verif.Props.Call
import Verif.Props.Cbn
import Verif.Props.CondExp
import Verif.Props.Copy
import Verif.Props.Cpd
import Verif.Props.Dependence
import Verif.Props.Draw
import Verif.Props.EdgeEdit
import Verif.Props.Efg
import Verif.Props.Equilibria
import Verif.Props.Existence
import Verif.Props.Export
import Verif.Props.Extras
import Verif.Props.Fair
import Verif.Props.FrontDoor
import Verif.Props.Games
import Verif.Props.GetNe
import Verif.Props.Home
import Verif.Props.IciMeaning
import Verif.Props.Incentives
import Verif.Props.Information
import Verif.Props.Intervene
import Verif.Props.IntroducedBias
import Verif.Props.Label
import Verif.Props.Laws
import Verif.Props.MixedSpe
import Verif.Props.Motives
import Verif.Props.Names
import Verif.Props.Net
import Verif.Props.OneShot
import Verif.Props.Optimal
import Verif.Props.Paths
import Verif.Props.Patterns
import Verif.Props.Payoffs
import Verif.Props.Policies
import Verif.Props.Policy
import Verif.Props.PolicyReturns
import Verif.Props.PolicyRuns
import Verif.Props.Quantify
import Verif.Props.Query
import Verif.Props.Random
import Verif.Props.RandomCpd
import Verif.Props.RandomGame
import Verif.Props.RandomGames
import Verif.Props.RandomRecall
import Verif.Props.RecallPairs
import Verif.Props.Refusal
import Verif.Props.Related
import Verif.Props.Relevance
import Verif.Props.Reliance
import Verif.Props.Remove
import Verif.Props.RemoveCpds
import Verif.Props.Repeated
import Verif.Props.Repr
import Verif.Props.RequisiteRules
import Verif.Props.Rescale
import Verif.Props.Returns
import Verif.Props.RiComplete
import Verif.Props.RiMeaning
import Verif.Props.Sample
import Verif.Props.SeenGames
import Verif.Props.SimpleCbns
import Verif.Props.SimpleCids
import Verif.Props.SimpleGames
import Verif.Props.SmallCids
import Verif.Props.Solve
import Verif.Props.Solved
import Verif.Props.Spe
import Verif.Props.StoryCids
import Verif.Props.StoryMacids
import Verif.Props.Structural
import Verif.Props.Structure
import Verif.Props.Subgame
import Verif.Props.Tolerance
import Verif.Props.Total
import Verif.Props.Value
import Verif.Props.Values
import Verif.Props.VocComplete
import Verif.Props.VoiComplete
import Verif.Props.WholeGame
import Verif.Props.Witness
import Verif.Props.Worth
