"""Write AXIOMS.txt: the axioms of every theorem in namespace Props.  Run after `lake build`."""
import os
import subprocess
import tempfile

ROOT = os.path.dirname(os.path.dirname(os.path.abspath(__file__)))
PROGRAM = r"""
import Lean
import Verif
/-! Lists the axioms of every theorem in namespace `Props`: `python3 tools/axioms.py`. -/
open Lean Elab Command
#eval show CommandElabM Unit from do
  let env ← getEnv
  let mut rows : Array (String × String) := #[]
  for (n, c) in env.constants.map₁.toList do
    if n.getPrefix == `Props && !n.isInternal then
      if let .thmInfo _ := c then
        let ax ← Lean.collectAxioms n
        let ax := (ax.map toString).qsort (· < ·)
        rows := rows.push (toString n, if ax.isEmpty then "none" else ", ".intercalate ax.toList)
  for (n, a) in rows.qsort (fun x y => x.1 < y.1) do
    IO.println s!"{n}: {a}"
"""

with tempfile.TemporaryDirectory() as d:
    path = os.path.join(d, 'axioms.lean')
    with open(path, 'w') as f:
        f.write(PROGRAM.lstrip())
    out = subprocess.run(['lake', 'env', 'lean', path], cwd=os.path.join(ROOT, 'lean'), check=True,
                         capture_output=True, text=True).stdout
with open(os.path.join(ROOT, 'AXIOMS.txt'), 'w') as f:
    f.write(out)
