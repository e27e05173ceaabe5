"""Write AXIOMS.md: the axioms every property theorem depends on (from `#print axioms`)."""
import re, subprocess, glob, os
root = os.path.join(os.path.dirname(os.path.abspath(__file__)), "..")
names = []
for f in sorted(glob.glob(root + "/lean/Verif/Props/*.lean")):
    names += re.findall(r"^(?:protected |private )?theorem (C\d\d\w*)", open(f).read(), re.M)
src = "import Verif\n" + "".join(f"#print axioms Hacspec.Props.{n}\n" for n in names)
open("/tmp/Axioms.lean", "w").write(src)
out = subprocess.run(["lake", "env", "lean", "/tmp/Axioms.lean"], cwd=root + "/lean", capture_output=True, text=True).stdout
out = re.sub(r"\n\s+", " ", out)
groups = {}
for n, a in re.findall(r"'Hacspec\.Props\.(\w+)' (?:depends on axioms: \[(.*?)\]|does not depend on any axioms)", out):
    groups.setdefault(a or "none", []).append(n)
assert sum(map(len, groups.values())) == len(names), (len(names), out[:2000])
with open(root + "/AXIOMS.md", "w") as f:
    f.write("# Axioms of the property theorems (`#print axioms`, generated by tools/axioms.py)\n")
    for a, ns in sorted(groups.items()):
        f.write(f"\n## {a}\n\n" + ", ".join(sorted(ns)) + "\n")
print({a: len(ns) for a, ns in groups.items()})
