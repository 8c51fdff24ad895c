#!/usr/bin/env python3
"""Append the results of a mutation batch (a JSON list) to seeded/LOG.jsonl, skipping lines already there."""
import json, sys, os
here = os.path.dirname(os.path.dirname(os.path.abspath(__file__)))
log = os.path.join(here, "seeded", "LOG.jsonl")
seen = set(l.strip() for l in open(log)) if os.path.exists(log) else set()
with open(log, "a") as f:
    for r in json.load(open(sys.argv[1])):
        line = json.dumps(r, ensure_ascii=False)
        if line not in seen:
            f.write(line + "\n")
