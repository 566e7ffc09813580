"""Append mutation results to seeded/LOG.jsonl: seedlog.py mutants.json tightened.json out.jsonl...

mutants.json: list of {id, file, def, old, new, claim}; tightened.json: {id: [theorems]}; out.jsonl: output of
mutate.py. Mutants already logged are skipped, as are runs that ended with a tool error.

"failed" are the property theorems whose own proof no longer checks. "dependent" are those that still check but use a
lemma whose proof no longer checks; nothing is known about their truth. "refuted" are theorems whose statement was
proved false for the edited model (refute.py); only these are known to be false.
"""
import json, os, sys

root = os.path.dirname(os.path.dirname(os.path.abspath(__file__)))
log = os.path.join(root, "seeded", "LOG.jsonl")
muts = {m["id"]: m for m in json.load(open(sys.argv[1]))}
tight = json.load(open(sys.argv[2]))


def split(r):
    own = {b.split(".", 1)[1] for b in r["broken"]}
    return {"failed": [t for t in r["failed"] if t in own],
            "dependent": [t for t in r["failed"] if t not in own],
            "broken_lemmas": sorted({b for b in r["broken"] if b.split(".", 1)[1] not in r["failed"]}),
            "refuted": []}


done = set()
if os.path.exists(log):
    done = {json.loads(l)["id"] for l in open(log) if l.strip()}
with open(log, "a") as out:
    for f in sys.argv[3:]:
        for l in open(f):
            r = json.loads(l)
            if r["id"] in done or r.get("error"):
                continue
            done.add(r["id"])
            m = muts[r["id"]]
            out.write(json.dumps({
                "id": m["id"], "definition": m["def"], "file": m["file"],
                "edit": {"from": m["old"], "to": m["new"]}, "breaks": m["claim"],
                **split(r), "tightened": tight.get(m["id"], []),
            }, ensure_ascii=False) + "\n")
