#!/usr/bin/env python3
"""Apply one realistic bug at a time to a scratch copy of the model, rebuild, and record which theorems fail.

usage: mutate.py MUTANTS.json RESULTS.jsonl [id ...]
Each mutant: {id, file, def, old, new, n (occurrence after the definition, default 1), edit, claim}.
The scratch copy is /tmp/mut/lean; /verif is never touched."""
import json, re, subprocess, sys, os, shutil, signal, threading, time
SRC = "/verif/lean"; DST = "/tmp/mut/lean"
PRI = "/tmp/mut/pristine"
def sync():
    if not os.path.exists(PRI): subprocess.run(["cp", "-a", SRC, PRI], check=True)
    shutil.rmtree(DST, ignore_errors=True)
    subprocess.run(["cp", "-a", PRI, DST], check=True)
def decl_at(lines, n):
    for i in range(min(n, len(lines)) - 1, -1, -1):
        m = re.match(r"\s*(?:@\[.*?\]\s*)?(?:private |noncomputable |protected )*(theorem|lemma|def|example|instance|structure|abbrev)\b\s*([^\s:({\[]*)", lines[i])
        if m: return m.group(2) or f"example@{i+1}"
    return "?"
def run(mu):
    p = os.path.join(DST, "Verif", mu["file"]); s = open(p).read()
    m = re.search(r"(?:def|structure|inductive|abbrev) " + re.escape(mu["def"]) + r"\b", s)
    assert m, (mu["id"], "definition not found")
    i = m.start()
    for _ in range(mu.get("n", 1)):
        j = s.find(mu["old"], i); assert j >= 0, (mu["id"], "text not found"); i = j + 1
    open(p, "w").write(s[:j] + mu["new"] + s[j + len(mu["old"]):])
    t = time.time()
    # the build is stopped 40 s after the first theorem of a Props file has failed
    pr = subprocess.Popen(["nice", "-n", "10", "lake", "build"], cwd=DST, stdout=subprocess.PIPE, stderr=subprocess.STDOUT, text=True, start_new_session=True)
    lines, first = [], [None]
    def reader():
        for l in pr.stdout:
            lines.append(l)
            if first[0] is None and re.search(r"error: Verif/Props/", l): first[0] = time.time()
    th = threading.Thread(target=reader, daemon=True); th.start()
    ok = None
    while ok is None:
        try: ok = pr.wait(timeout=2) == 0
        except subprocess.TimeoutExpired:
            if (first[0] and time.time() - first[0] > 40) or time.time() - t > 2400:
                os.killpg(pr.pid, signal.SIGKILL); pr.wait(); ok = False
    th.join(timeout=5); out = "".join(lines)
    fails = {}
    for m in re.finditer(r"error: (Verif/[\w/]+\.lean):(\d+):", out):
        ls = open(os.path.join(DST, m.group(1))).read().split("\n")
        fails.setdefault(m.group(1), [])
        d = decl_at(ls, int(m.group(2)))
        if d not in fails[m.group(1)]: fails[m.group(1)].append(d)
    return ok, fails, time.time() - t
def main():
    mus = json.load(open(sys.argv[1])); res = sys.argv[2]; only = set(sys.argv[3:])
    done = set()
    if os.path.exists(res):
        done = {json.loads(l)["id"] for l in open(res)}
    for mu in mus:
        if (only and mu["id"] not in only) or mu["id"] in done: continue
        sync()
        try: ok, fails, w = run(mu)
        except AssertionError as e:
            print("BAD", e, flush=True); continue
        rec = {"id": mu["id"], "definition": mu["def"], "file": "lean/Verif/" + mu["file"], "edit": mu["edit"], "claim": mu["claim"],
               "survived": ok, "failed": fails, "wall": round(w)}
        open(res, "a").write(json.dumps(rec) + "\n"); print(json.dumps(rec)[:400], flush=True)
if __name__ == "__main__": main()
