"""Turn the raw records of the mutation runs into seeded/LOG.jsonl.

usage: python3 tools/seedlog.py RAW.jsonl [RAW.jsonl ...] > seeded/LOG.jsonl
Each raw record is one edit of the model in a scratch copy, rebuilt.
Later records for the same (definition, edit) replace earlier ones, so a
theorem tightened after an attempt is kept in TIGHTENED below.
"""
import json
import re
import sys

# (definition, edit) -> theorems tightened because of the attempt
TIGHTENED = {}
try:
    from seedtight import TIGHTENED, REMARK
except ImportError:
    REMARK = {}


def main(paths):
    recs = {}
    for path in paths:
        for line in open(path):
            r = json.loads(line)
            recs[(r["definition"], r["edit"])] = r
    for key, r in recs.items():
        failed = [t.split("Verif.", 1)[1] for t in r["failed"]]
        out = {
            "definition": r["definition"],
            "edit": r["edit"],
            "claim": r["claim"],
            "claims_broken_on_samples": r["sem"],
            "theorems_failed": failed,
            "theorems_tightened": TIGHTENED.get(key, []),
        }
        if not failed:
            out["outcome"] = "survived"
        elif r["weak"] and not TIGHTENED.get(key):
            out["outcome"] = "caught; no theorem of %s failed" % ", ".join(r["weak"])
        else:
            out["outcome"] = "caught"
        if key in REMARK:
            out["remark"] = REMARK[key]
        print(json.dumps(out, ensure_ascii=False))


if __name__ == "__main__":
    main(sys.argv[1:])
