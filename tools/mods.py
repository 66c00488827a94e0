"""Regenerate lean/Verif.lean: import every module under lean/Verif (skip names given as arguments)."""
import glob, os, sys
os.chdir(os.path.join(os.path.dirname(os.path.abspath(__file__)), '..', 'lean'))
mods = sorted(f[:-5].replace('/', '.') for f in glob.glob('Verif/**/*.lean', recursive=True))
open('Verif.lean', 'w').write(''.join(f'import {m}\n' for m in mods if m not in sys.argv[1:]))
