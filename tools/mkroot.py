#!/usr/bin/env python3
"""Regenerate lean/Verif.lean: import every module under lean/Verif."""
import os
root = os.path.join(os.path.dirname(os.path.abspath(__file__)), "..", "lean")
order = ["Model", "Spec", "Proofs", "Props"]
out = []
for d in order:
    for f in sorted(os.listdir(os.path.join(root, "Verif", d))):
        if f.endswith(".lean"):
            out.append(f"import Verif.{d}.{f[:-5]}")
open(os.path.join(root, "Verif.lean"), "w").write("\n".join(out) + "\n")
