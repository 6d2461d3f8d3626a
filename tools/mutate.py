#!/usr/bin/env python3
"""Mutation testing.  usage: mutate.py FILE.json ...
Each file holds a list of {module, definition, old, new, claim, props}: in a scratch copy of the
project the text `old` of the model module is replaced by `new` and the property modules `props`
are built.  One line per attempt is appended to seeded/LOG.jsonl,
also when no theorem failed (`detected` is then false)."""
import json, os, re, subprocess, sys, shutil
root = os.path.abspath(os.path.join(os.path.dirname(os.path.abspath(__file__)), ".."))
scratch = os.environ.get("MUT", "/tmp/mut") + "/lean"

def sync():
    os.makedirs(os.path.dirname(scratch), exist_ok=True)
    subprocess.run(["rsync", "-a", "--delete", root + "/lean/", scratch + "/"], check=False) \
        if shutil.which("rsync") else subprocess.run(
            "rm -rf %s && cp -a %s/lean %s" % (scratch, root, scratch), shell=True, check=True)

def decl_at(path, line):
    name = None
    for i, l in enumerate(open(path), 1):
        if i > line: break
        m = re.match(r"\s*(?:@\[[^\]]*\]\s*)?(?:private |noncomputable )*(theorem|lemma|def|example|instance|abbrev|structure)\s*(\S*)", l)
        if m: name = m.group(2) if m.group(1) != "example" else "example@%d" % i
    return name

def props_theorems(mod):
    p = scratch + "/" + mod.replace(".", "/") + ".lean"
    return re.findall(r"^theorem (C\d+_\S+)", open(p).read(), re.M)

def run(m):
    path = scratch + "/" + m["module"].replace(".", "/") + ".lean"
    src = open(path).read()
    if src.count(m["old"]) < 1:
        print("!! text not found", m["definition"], repr(m["old"])); return None
    if src.count(m["old"]) > 1 and not m.get("all"):
        print("!! text ambiguous", m["definition"], repr(m["old"])); return None
    open(path, "w").write(src.replace(m["old"], m["new"]))
    r = subprocess.run(["lake", "build"] + m["props"], cwd=scratch, capture_output=True, text=True)
    out = r.stdout + r.stderr
    failed, files = [], set()
    for f, l in re.findall(r"error: (?:\./)?(Verif/\S+\.lean):(\d+):\d+", out):
        d = decl_at(scratch + "/" + f, int(l))
        files.add(f)
        if d and d not in failed: failed.append(d)
    blocked = []
    if r.returncode != 0:
        for p in m["props"]:
            if p.replace(".", "/") + ".lean" not in files:
                blocked += props_theorems(p)
    open(path, "w").write(src)
    return r.returncode, failed, blocked, out

def main():
    sync()
    log = root + "/seeded/LOG.jsonl"
    for f in sys.argv[1:]:
        for m in json.load(open(f)):
            res = run(m)
            if res is None: continue
            rc, failed, blocked, out = res
            modelerr = any(re.search(r"error: (?:\./)?" + m["module"].replace(".", "/"), l) for l in out.splitlines())
            rec = dict(definition=m["definition"], module=m["module"], edit="%s  =>  %s" % (m["old"].strip(), m["new"].strip()),
                       claim=m["claim"], failed=failed, not_rechecked=blocked, tightened=m.get("tightened", []),
                       detected=rc != 0)
            if m.get("note"): rec["note"] = m["note"]
            if modelerr:
                print("!! mutant does not compile:", m["definition"], m["new"]); print(out[-800:]); continue
            print(("caught  " if rc else "SURVIVED"), m["definition"], "|", m["new"].strip()[:60], "|", failed[:6])
            open(log, "a").write(json.dumps(rec) + "\n")
main()
