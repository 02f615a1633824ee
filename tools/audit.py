# prints the axioms of every theorem named in MANIFEST.json
import json, subprocess
names = [t for c in json.load(open("/verif/MANIFEST.json"))["claims"] for t in c["theorems"]]
src = "import Verif\n" + "".join(f"#print axioms {n}\n" for n in names)
open("/tmp/audit.lean", "w").write(src)
r = subprocess.run(["lake", "env", "lean", "/tmp/audit.lean"], cwd="/verif/lean", capture_output=True, text=True)
open("/verif/tools/axioms.txt", "w").write(r.stdout + r.stderr)
