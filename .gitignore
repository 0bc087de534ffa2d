lean/.lake/
lean/build/
*.olean
__pycache__/
