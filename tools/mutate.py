#!/usr/bin/env python3
"""Mutation testing of the theorems.  usage: mutate.py MUTATIONS.json [--only substr]
Each mutation: {file, definition, old, new, claim, tightened?}.  The edit is made in a scratch copy
(/tmp/mut/lean); the project is rebuilt; failed declarations are mapped to theorem names, and the theorems that use
them (by name, transitively) are added.  One JSON line per mutation is appended to seeded/LOG.jsonl."""
import json, os, re, subprocess, sys, shutil
V = "/verif/lean"; M = "/tmp/mut/lean"
def sync():
    os.makedirs(M, exist_ok=True)
    subprocess.run(["rsync", "-a", "--delete", V + "/", M + "/"], check=True) if shutil.which("rsync") else \
        subprocess.run(f"rm -rf {M} && cp -a {V} {M}", shell=True, check=True)
def strip_examples():
    """so that a failing example does not hide the theorems of later modules"""
    for f in all_files():
        t = open(f).read()
        t = re.sub(r"/--((?:(?!-/).)*)-/\s*\nexample", r"/-\1-/\nexample", t, flags=re.S)
        out = []; skip = False
        for l in t.split("\n"):
            if re.match(r"example\b", l): skip = True; continue
            if skip and (l.startswith(" ") or l == ""): continue
            skip = False
            out.append(l)
        open(f, "w").write("\n".join(out))
DECL = re.compile(r"^(?:@\[[^\]]*\]\s*)?(?:private |protected |noncomputable )*(theorem|lemma|def|example|instance|abbrev|structure|inductive)\s*([^\s:({\[]*)")
def decls(path):
    out = []
    ns = []
    for i, l in enumerate(open(path), 1):
        m = DECL.match(l)
        if m: out.append((i, m.group(1), m.group(2) or "example@%d" % i))
    return out
def all_files():
    r = []
    for d, _, fs in os.walk(M + "/Verif"):
        for f in fs:
            if f.endswith(".lean"): r.append(os.path.join(d, f))
    return r
def bodies():
    """theorem name -> (file, text)"""
    res = {}
    for f in all_files():
        L = open(f).read().split("\n"); D = decls(f)
        for k, (i, kind, n) in enumerate(D):
            j = D[k + 1][0] - 1 if k + 1 < len(D) else len(L)
            res[(f, n)] = (kind, "\n".join(L[i - 1:j]))
    return res
def imports():
    """file -> set of files it imports, transitively"""
    G = {}
    for f in all_files():
        G[f] = {os.path.join(M, m.replace(".", "/") + ".lean") for m in re.findall(r"^import (Verif\S*)", open(f).read(), re.M)}
    ch = True
    while ch:
        ch = False
        for f in G:
            new = set().union(*[G.get(x, set()) for x in G[f]]) if G[f] else set()
            if not new <= G[f]: G[f] |= new; ch = True
    return G
def closure(failed):
    B = bodies(); G = imports()
    bad = set((f, n) for f, n, k in failed)
    work = [(f, n) for f, n, k in failed if not n.startswith("example@") and k == "theorem"]
    while work:
        f0, n0 = work.pop()
        last = n0.split(".")[-1]
        pat = re.compile((r"\." if "." in n0 else r"(?<![\w'])") + re.escape(last) + r"(?![\w'])")
        for (f, n), (kind, t) in B.items():
            if (f, n) in bad or kind != "theorem": continue
            if f != f0 and f0 not in G.get(f, ()): continue
            if pat.search(t.replace(n, "", 1)):
                bad.add((f, n)); work.append((f, n))
    return bad
def closure_old(failed):
    B = bodies()
    names = {n.split(".")[-1] for (f, n, k) in failed if not n.startswith("example@") and k == "theorem"}
    bad = set((f, n) for f, n, k in failed)
    done = set()
    while names - done:
        todo = names - done
        done |= todo
        pat = re.compile(r"\b(" + "|".join(map(re.escape, todo)) + r")\b")
        for (f, n), (kind, t) in B.items():
            if (f, n) in bad or kind != "theorem": continue
            body = t.split("\n", 1)[-1] if False else t
            if pat.search(body.replace(n, "", 1)):
                bad.add((f, n)); names.add(n.split(".")[-1])
    return bad
def killer(path):
    L = open(path).read().split("\n"); D = [i for i, _, _ in decls(path)]
    tmp = path[:-5] + "Prefix.lean"
    def bad(k):     # do the first k declarations compile?
        end = D[k] - 1 if k < len(D) else len(L)
        t = "\n".join(L[:end])
        t = re.sub(r"/--(?:(?!-/).)*-/\s*(@\[[^\]]*\]\s*)?$", "", t, flags=re.S)
        open(tmp, "w").write(t)
        try:
            q = subprocess.run(["timeout", "100", "lake", "env", "lean", tmp], cwd=M, capture_output=True, text=True)
            return q.returncode in (124, 137, -9)
        finally: os.remove(tmp)
    lo, hi = 0, len(D)      # lo declarations are fine, hi are not
    while hi - lo > 1:
        mid = (lo + hi) // 2
        if bad(mid): hi = mid
        else: lo = mid
    return D[hi - 1] if hi else None
def run(mut):
    p = os.path.join(M, "Verif", mut["file"])
    src = open(p).read()
    assert src.count(mut["old"]) >= 1, ("old text not found", mut)
    open(p, "w").write(src.replace(mut["old"], mut["new"], 1))
    try:
        r = subprocess.run(["lake", "build"], cwd=M, capture_output=True, text=True, timeout=3000)
        out = r.stdout + r.stderr
        if "exited with code 137" in out:   # out of memory: find the declaration by compiling prefixes of the file
            for m in re.finditer(r"^- (Verif\S*)", out, re.M):
                f = m.group(1).replace(".", "/") + ".lean"
                k = killer(os.path.join(M, f))
                if k: out += f"\nerror: {f}:{k}:0: killed"
        failed = []
        for m in re.finditer(r"error: (\S+?\.lean):(\d+):", out):
            f = os.path.join(M, m.group(1)) if not m.group(1).startswith("/") else m.group(1)
            ln = int(m.group(2)); last = None
            for (i, kind, n) in decls(f):
                if i <= ln: last = (f, n, kind)
            if last and last not in failed: failed.append(last)
        direct = [n for f, n, k in failed]
        thms = sorted({n for f, n in closure(failed) if re.search(r"(^|\.)C\d\d", n)})
        return r.returncode, direct, thms
    finally:
        open(p, "w").write(src)
if __name__ == "__main__":
    muts = json.load(open(sys.argv[1]))
    only = sys.argv[3] if len(sys.argv) > 3 else ""
    sync(); strip_examples()
    r = subprocess.run(["lake", "build"], cwd=M, capture_output=True, text=True)
    if r.returncode: print("baseline fails", r.stdout[-3000:]); sys.exit(1)
    for mut in muts:
        if only and only not in json.dumps(mut): continue
        try:
            rc, direct, thms = run(mut)
        except AssertionError as e:
            print("NOTFOUND", mut["definition"], mut["old"][:60]); continue
        line = dict(definition=mut["definition"], file="lean/Verif/" + mut["file"], edit=f"{mut['old']!r} -> {mut['new']!r}",
                    claim=mut["claim"], failed=thms, failed_directly=direct, survived=(rc == 0), tightened=mut.get("tightened", []))
        if mut.get("note"): line["note"] = mut["note"]
        with open("/verif/seeded/LOG.jsonl", "a") as g: g.write(json.dumps(line, ensure_ascii=False) + "\n")
        want = re.findall(r"C\d\d", mut["claim"])
        ok = any(any(w in t for t in thms) for w in want)
        print("OK " if rc and ok else ("SURVIVED" if rc == 0 else "WEAK"), mut["definition"], "|", mut["old"][:50].replace("\n", "⏎"), "->", mut["new"][:50].replace("\n","⏎"), "|", thms[:6], "" if ok else direct[:5], flush=True)
