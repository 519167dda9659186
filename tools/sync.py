#!/usr/bin/env python3
"""Regenerate lean/Verif.lean, lean/Verif/Audit.lean and MANIFEST.json from the Lean sources.

Theorems whose name starts with a property id (C01_..., in lean/Verif/Props) belong to that property.
tools/status.json maps a property id to {"status": ..., "note": ...}; ids without theorems need an entry there
with status "not_applicable" or are reported.
"""
import glob, json, os, re
root = os.path.dirname(os.path.dirname(os.path.abspath(__file__)))
lean = os.path.join(root, "lean")
mods = sorted(os.path.relpath(p, lean)[:-5].replace("/", ".")
              for p in glob.glob(os.path.join(lean, "Verif/**/*.lean"), recursive=True))
mods = [m for m in mods if m != "Verif.Audit"]
props = [json.loads(l) for l in open(os.path.join(root, "properties.jsonl")) if l.strip()]
status = json.load(open(os.path.join(root, "tools/status.json")))
found = {}
allthm = []
for p in sorted(glob.glob(os.path.join(lean, "Verif/Props/**/*.lean"), recursive=True)):
    ns = []
    for line in open(p):
        m = re.match(r"namespace (\S+)", line)
        if m: ns.append(m.group(1))
        m = re.match(r"end (\S+)", line)
        if m and ns and ns[-1] == m.group(1): ns.pop()
        m = re.match(r"(?:@\[[^\]]*\] )?theorem (\S+)", line)
        if m:
            full = ".".join(ns + [m.group(1)])
            k = re.match(r"(C\d\d+)_", m.group(1))
            if k:
                found.setdefault(k.group(1), []).append(full)
                allthm.append(full)
with open(os.path.join(lean, "Verif.lean"), "w") as f:
    f.write("".join(f"import {m}\n" for m in mods))
    f.write("import Verif.Audit\n")
with open(os.path.join(lean, "Verif/Audit.lean"), "w") as f:
    f.write("".join(f"import {m}\n" for m in mods if m.startswith("Verif.Props")))
    f.write("\n/-! Axioms used by every property theorem (generated by tools/sync.py). -/\n\n")
    f.write("".join(f"#print axioms {t}\n" for t in allthm))
claims = []
for p in props:
    i = p["id"]; st = status.get(i, {})
    th = found.get(i, [])
    s = st.get("status") or ("proved" if th else None)
    if s is None:
        print("no theorem and no status:", i, p["title"]); continue
    if s != "not_applicable" and not th: print("claimed without theorem:", i); continue
    if st.get("status") is None and any(t.endswith("_partial") for t in th): s = "partial"
    claims.append({"property": i, "status": s, "theorems": th, "note": st.get("note", "")})
json.dump({"claims": claims}, open(os.path.join(root, "MANIFEST.json"), "w"), indent=1, ensure_ascii=False)
unk = set(found) - {p["id"] for p in props}
if unk: print("unknown property ids", unk)
print(len(claims), "claims,", len(allthm), "theorems")
