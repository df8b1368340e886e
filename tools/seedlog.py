#!/usr/bin/env python3
"""Append mutation results to seeded/LOG.jsonl.
usage: seedlog.py RESULTS.jsonl [RERUN.jsonl]  -- a mutant that survived RESULTS and failed RERUN was tightened by the theorems failing there."""
import json, sys
log = "/verif/seeded/LOG.jsonl"
first = [json.loads(l) for l in open(sys.argv[1])]
re_ = {}
if len(sys.argv) > 2:
    for l in open(sys.argv[2]):
        r = json.loads(l); re_[r["id"]] = r
notes = json.load(open(sys.argv[3])) if len(sys.argv) > 3 else {}
try: seen = {json.loads(l)["id"] for l in open(log)}
except FileNotFoundError: seen = set()
with open(log, "a") as f:
    for r in first:
        if r["id"] in seen: continue
        flat = lambda d: sorted({x for v in d.values() for x in v})
        t = flat(re_[r["id"]]["failed"]) if r["survived"] and r["id"] in re_ and not re_[r["id"]]["survived"] else []
        out = {"id": r["id"], "definition": r["definition"], "file": r["file"], "edit": r["edit"], "claim": r["claim"],
               "survived_first_time": r["survived"], "theorems_failed": flat(r["failed"]) or t, "theorems_tightened": t}
        if r["id"] in notes: out["note"] = notes[r["id"]]
        f.write(json.dumps(out) + "\n")
