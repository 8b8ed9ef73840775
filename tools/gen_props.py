"""Regenerates properties.jsonl from tools/props_part*.py."""
import glob, importlib.util, json, os
here = os.path.dirname(os.path.abspath(__file__))
out = []
for f in sorted(glob.glob(os.path.join(here, "props_part*.py"))):
    spec = importlib.util.spec_from_file_location(os.path.basename(f)[:-3], f)
    m = importlib.util.module_from_spec(spec); spec.loader.exec_module(m)
    out += m.P
ids = [x["id"] for x in out]
assert len(set(ids)) == len(ids)
with open(os.path.join(here, "..", "properties.jsonl"), "w") as fh:
    for x in out:
        fh.write(json.dumps(x) + "\n")
print(len(out))
