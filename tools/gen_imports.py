"""Regenerate lean/Verif.lean: one import line per module under lean/Verif."""
import glob, os
os.chdir(os.path.join(os.path.dirname(os.path.abspath(__file__)), '..', 'lean'))
mods = sorted(f[:-5].replace('/', '.') for f in glob.glob('Verif/**/*.lean', recursive=True))
open('Verif.lean', 'w').write(''.join(f'import {m}\n' for m in mods))
