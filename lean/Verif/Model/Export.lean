import Verif.Model.Efg

/-!
# Writing a game to a file (`pycid/export/gambit.py`)

The file system is a dictionary from names to contents.  `render` stands for pygambit's `Game.write`, which is not
modelled: it turns a game into text.  Python's buffer passes the text on to the file system in pieces; `pieces` says
which.  Simplification: `open` succeeds; nobody else changes the files meanwhile.
-/

namespace Verif

abbrev Disk := Dict String String

/-- What can be found on the disk while `with open(filename, "w") as f: f.write(text)` (gambit.py:121-122) is executed:
`open` empties the file, then one piece after the other is appended. -/
def Disk.saving (disk : Disk) (filename : String) : String → List String → List Disk
  | done, [] => [disk.set filename done]
  | done, p :: ps => disk.set filename done :: Disk.saving disk filename (done ++ p) ps

/-- `macid_to_gambit_file` (gambit.py:115-125): the network afterwards, what the disk looks like before, at every moment
of the call and at its end, and the outcome.  The message that is printed is left out. -/
def Net.macidToGambitFile (pick : Pick) (tpick : List Node → Nat) (ord : List Node → List Node) (render : Efg → String)
    (pieces : String → List String) (net : Net) (disk : Disk) (filename : String) : Net × List Disk × Py Bool :=
  match Net.macidToEfg pick tpick ord net net.m.decisions net.m.agents with
  | (net', .error e) => (net', [disk], .error e)
  | (net', .ok t) => (net', disk :: Disk.saving disk filename "" (pieces (render t)), .ok true)

end Verif
