"""Prints the axioms of every theorem of MANIFEST.json, grouped, as the last section of DESIGN.md.

usage: python3 tools/axioms.py   (rewrites the part of DESIGN.md after the marker line)
"""
import json
import re
import subprocess
import textwrap

MARK = "<!-- generated by tools/axioms.py -->"


def main():
    claims = json.load(open("/verif/MANIFEST.json"))["claims"]
    names = [t for c in claims for t in c["theorems"]]
    open("/tmp/ax.lean", "w").write("import Verif\n" + "\n".join("#print axioms " + t for t in names) + "\n")
    out = subprocess.run(["lake", "env", "lean", "/tmp/ax.lean"], cwd="/verif/lean", capture_output=True, text=True).stdout
    out = re.sub(r"\n\s+", " ", out)
    groups = {}
    for line in out.splitlines():
        m = re.match(r"'Verif\.(\S+)' (?:depends on axioms: \[(.*)\]|does not depend on any axioms)", line)
        assert m, line
        groups.setdefault(m.group(2) or "none", []).append(m.group(1))
    assert sum(map(len, groups.values())) == len(names)
    doc = open("/verif/DESIGN.md").read()
    head = doc.split(MARK)[0]
    body = MARK + "\n\n"
    for axioms, thms in sorted(groups.items(), key=lambda kv: len(kv[1])):
        body += "* **%s** (%d theorems)" % (axioms, len(thms))
        body += ": all the others.\n" if len(thms) > len(names) / 2 else ":\n" + textwrap.fill(
            ", ".join("`%s`" % t for t in thms), 118, initial_indent="  ", subsequent_indent="  ") + "\n"
    open("/verif/DESIGN.md", "w").write(head + body)


main()
