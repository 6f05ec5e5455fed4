#!/usr/bin/env python3
"""Regenerates MANIFEST.json and lean/Verif/Axioms.lean from the theorems in lean/Verif/Props.

A theorem belongs to property Cnn when its name starts with Cnn_ (or Cmm_Cnn_).
Run from /verif:  python3 tools/manifest.py
"""
import json, re, glob, os
root = os.path.dirname(os.path.dirname(os.path.abspath(__file__)))
notes = json.load(open(os.path.join(root, "tools", "notes.json")))
props = [json.loads(l)["id"] for l in open(os.path.join(root, "properties.jsonl"))]
thms = {}
mods = []
for f in sorted(glob.glob(os.path.join(root, "lean/Verif/Props/*.lean"))):
    ns = []
    mods.append("Verif.Props." + os.path.basename(f)[:-5])
    incomment = 0
    for line in open(f):
        # crude block comment tracking, enough for our own files
        opened = line.count("/-"); closed = line.count("-/")
        if incomment == 0:
            m = re.match(r"namespace\s+(\S+)", line)
            if m: ns.append(m.group(1))
            m = re.match(r"end\s+(\S+)", line)
            if m and ns and ns[-1] == m.group(1): ns.pop()
            m = re.match(r"(?:@\[[^\]]*\]\s*)?theorem\s+((?:C\d\d_)+\S*)", line)
            if m:
                name = m.group(1)
                full = ".".join(ns + [name])
                for c in re.findall(r"C\d\d(?=_)", re.match(r"(?:C\d\d_)+", name).group(0)):
                    thms.setdefault(c, []).append(full)
        incomment += opened - closed
claims = []
for c in props:
    n = notes.get(c)
    if n is None and c not in thms: continue
    claims.append({"property": c, "status": n["status"], "theorems": thms.get(c, []), "note": n["note"]})
missing = [c for c in thms if c not in notes]
if missing: print("no notes for", missing)
json.dump({"claims": claims}, open(os.path.join(root, "MANIFEST.json"), "w"), indent=1, ensure_ascii=False)
allt = sorted({t for ts in thms.values() for t in ts})
with open(os.path.join(root, "lean/Verif/Axioms.lean"), "w") as o:
    o.write("".join(f"import {m}\n" for m in mods))
    o.write("\n/-! Generated by tools/manifest.py: the axioms of every property theorem. -/\n\n")
    o.write("".join(f"#print axioms {t}\n" for t in allt))
with open(os.path.join(root, "lean/Verif.lean"), "w") as o:
    o.write("".join(f"import {m}\n" for m in mods) + "import Verif.Axioms\n")
print(len(claims), "claims", len(allt), "theorems; without theorem:", [c for c in props if c not in thms])
