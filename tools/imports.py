#!/usr/bin/env python3
"""Regenerate lean/Verif.lean and the imports of lean/Verif/Audit.lean from the files present."""
import pathlib, re
root = pathlib.Path(__file__).resolve().parent.parent / "lean"
mods = sorted(".".join(p.relative_to(root).with_suffix("").parts) for p in (root / "Verif").rglob("*.lean"))
(root / "Verif.lean").write_text("".join(f"import {m}\n" for m in mods))
audit = root / "Verif" / "Audit.lean"
s = re.sub(r"^import Verif\..*\n", "", audit.read_text(), flags=re.M)
lean_end = max(m.end() for m in re.finditer(r"^import Lean\..*\n", s, flags=re.M))
props = "".join(f"import {m}\n" for m in mods if m.startswith("Verif.Props."))
audit.write_text(s[:lean_end] + props + s[lean_end:])
